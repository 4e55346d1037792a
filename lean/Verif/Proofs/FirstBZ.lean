import Verif.Model.FirstBZ
import Verif.Spec.FirstBZ
import Verif.Props.LatticeSymmetry
/-!
Helper lemmas for the drawings of the first Brillouin zone.
-/

namespace Verif.BZ

open Verif.Latt Verif.LDB

/-- Reciprocal vectors are unique. -/
theorem eq_bs {A B : Fin 2 → Pt 2} (hdet : A 0 0 * A 1 1 - A 0 1 * A 1 0 ≠ 0)
    (h : IsReciprocal A B) : B = bsCalculator A := by
  have h00 := h 0 0
  have h01 := h 0 1
  have h10 := h 1 0
  have h11 := h 1 1
  simp at h00 h01 h10 h11
  rw [bs_two]
  funext i
  fin_cases i
  · refine pt2_ext ?_ ?_
    · simp
      field_simp
      linear_combination A 1 1 * h00 - A 0 1 * h10
    · simp
      field_simp
      linear_combination A 0 0 * h10 - A 1 0 * h00
  · refine pt2_ext ?_ ?_
    · simp
      field_simp
      linear_combination A 1 1 * h01 - A 0 1 * h11
    · simp
      field_simp
      linear_combination A 0 0 * h11 - A 1 0 * h01

theorem recip_bs {A : Fin 2 → Pt 2} (hdet : A 0 0 * A 1 1 - A 0 1 * A 1 0 ≠ 0) :
    IsReciprocal A (bsCalculator A) := by
  intro i j
  rw [bs_two]
  have e : ∀ D : ℝ, D ≠ 0 → 2 * Real.pi / D * D = 2 * Real.pi := fun D h => by field_simp
  have := e _ hdet
  generalize 2 * Real.pi / (A 0 0 * A 1 1 - A 0 1 * A 1 0) = w at *
  fin_cases i <;> fin_cases j <;> simp
  · linear_combination this
  · ring
  · ring
  · linear_combination this

theorem show_ok_iff {A : Fin 2 → Pt 2} {s : ℝ} {fig : Figure} :
    showFirstBZ A s = .ok fig ↔ A 0 0 * A 1 1 - A 0 1 * A 1 0 ≠ 0 ∧ fig = draw s (bsCalculator A) := by
  unfold showFirstBZ
  rw [dif_pos ⟨rfl, rfl⟩]
  by_cases h : A 0 0 * A 1 1 - A 0 1 * A 1 0 = 0
  · simp [h, raise]
  · simp [h, eq_comm]

theorem mem_box {c : Fin 2 → ℤ} : c ∈ mesh (pyRange (-1) 2) 2 ↔ ∀ i, |c i| ≤ 1 := by
  rw [mem_mesh]
  refine forall_congr' fun i => ?_
  rw [mem_pyRange, abs_le]
  omega

theorem zero2 : (![0, 0] : Fin 2 → ℤ) = 0 := int2_ext rfl rfl

theorem mem_box' {c : Fin 2 → ℤ} : c ∈ (mesh (pyRange (-1) 2) 2).filter (fun c => c ≠ ![0, 0]) ↔
    (∀ i, |c i| ≤ 1) ∧ c ≠ 0 := by
  rw [List.mem_filter, mem_box, zero2]; simp

theorem comb_inj2 {B : Fin 2 → Pt 2} (hB : B 0 0 * B 1 1 - B 0 1 * B 1 0 ≠ 0) {c d : Fin 2 → ℤ}
    (h : comb B c = comb B d) : c = d := by
  have e0 := congrFun h 0
  have e1 := congrFun h 1
  rw [comb_two', comb_two'] at e0 e1
  have k0 : ((c 0 : ℝ) - d 0) * (B 0 0 * B 1 1 - B 0 1 * B 1 0) = 0 := by
    linear_combination B 1 1 * e0 - B 1 0 * e1
  have k1 : ((c 1 : ℝ) - d 1) * (B 0 0 * B 1 1 - B 0 1 * B 1 0) = 0 := by
    linear_combination B 0 0 * e1 - B 0 1 * e0
  rcases mul_eq_zero.1 k0 with k0 | k0
  · rcases mul_eq_zero.1 k1 with k1 | k1
    · exact int2_ext (by exact_mod_cast sub_eq_zero.1 k0) (by exact_mod_cast sub_eq_zero.1 k1)
    · exact absurd k1 hB
  · exact absurd k0 hB

theorem segment_mid (s : ℝ) (G : Pt 2) (a : Fin 2) :
    (segment s G).1 a + (segment s G).2 a = G a := by
  fin_cases a
  · simp [segment]; ring
  · simp [segment]

theorem segment_inj {s : ℝ} {G H : Pt 2} (h : segment s G = segment s H) : G = H := by
  funext a
  rw [← segment_mid s G a, ← segment_mid s H a, h]

theorem nnorm_sq_two (x : Pt 2) : nnorm x ^ 2 = x 0 ^ 2 + x 1 ^ 2 := by
  rw [nnorm_sq, Fin.sum_univ_two]

theorem ndist_sq_two (x y : Pt 2) : ndist x y ^ 2 = (x 0 - y 0) ^ 2 + (x 1 - y 1) ^ 2 := by
  rw [ndist_eq, nnorm_sq_two]; rfl

/-- Closer to the origin than to `G`, in products. -/
theorem tie_two (x G : Pt 2) :
    (nnorm x ≤ ndist x G ↔ 2 * (x 0 * G 0 + x 1 * G 1) ≤ G 0 ^ 2 + G 1 ^ 2) ∧
    (ndist x G = nnorm x ↔ 2 * (x 0 * G 0 + x 1 * G 1) = G 0 ^ 2 + G 1 ^ 2) := by
  have h : ndist x G ^ 2 = nnorm x ^ 2 + (G 0 ^ 2 + G 1 ^ 2 - 2 * (x 0 * G 0 + x 1 * G 1)) := by
    rw [ndist_sq_two, nnorm_sq_two]; ring
  have := cmp_of_sq (nnorm_nonneg x) (Real.sqrt_nonneg _) h
  exact ⟨this.1.trans sub_nonneg, this.2.1.trans ⟨fun e => by linarith, fun e => by linarith⟩⟩

theorem onSegment_iff {s : ℝ} {G x : Pt 2} (hG : 0 < G 0 ^ 2 + G 1 ^ 2) :
    OnSegment (segment s G) x ↔ ndist x G = nnorm x ∧
      ndist x ![G 0 / 2, G 1 / 2] ≤ |s| * nnorm G := by
  have hle : ndist x ![G 0 / 2, G 1 / 2] ≤ |s| * nnorm G ↔
      (x 0 - G 0 / 2) ^ 2 + (x 1 - G 1 / 2) ^ 2 ≤ s ^ 2 * (G 0 ^ 2 + G 1 ^ 2) := by
    have h0 : 0 ≤ ndist x ![G 0 / 2, G 1 / 2] := Real.sqrt_nonneg _
    rw [← sq_le_sq₀ h0 (mul_nonneg (abs_nonneg s) (nnorm_nonneg G)), mul_pow,
      sq_abs, nnorm_sq_two, ndist_sq_two]
    simp
  rw [(tie_two x G).2, hle]
  constructor
  · rintro ⟨t, h0, h1, ht⟩
    have e0 := ht 0
    have e1 := ht 1
    simp [segment] at e0 e1
    have f0 : x 0 - G 0 / 2 = -((1 - 2 * t) * s * G 1) := by rw [e0]; ring
    have f1 : x 1 - G 1 / 2 = (1 - 2 * t) * s * G 0 := by rw [e1]; ring
    refine ⟨by rw [e0, e1]; ring, ?_⟩
    rw [f0, f1]
    have : (1 - 2 * t) ^ 2 ≤ 1 := by nlinarith
    have := mul_le_mul_of_nonneg_right this (mul_nonneg (sq_nonneg s) hG.le)
    nlinarith
  · rintro ⟨h1, h2⟩
    -- the coordinate along the line
    obtain ⟨u, hu0, hu1⟩ : ∃ u : ℝ, x 0 - G 0 / 2 = -(u * G 1) ∧ x 1 - G 1 / 2 = u * G 0 := by
      refine ⟨(G 0 * x 1 - G 1 * x 0) / (G 0 ^ 2 + G 1 ^ 2), ?_, ?_⟩
      · rw [eq_neg_iff_add_eq_zero]
        field_simp
        linear_combination G 0 * h1
      · field_simp
        linear_combination G 1 * h1
    rw [hu0, hu1] at h2
    have h3 : u ^ 2 ≤ s ^ 2 := by
      have : u ^ 2 * (G 0 ^ 2 + G 1 ^ 2) ≤ s ^ 2 * (G 0 ^ 2 + G 1 ^ 2) := by nlinarith
      exact le_of_mul_le_mul_right this hG
    have h4 : |u| ≤ |s| := sq_le_sq.1 h3
    by_cases hs : s = 0
    · subst hs
      have : u = 0 := by simpa using h4
      subst this
      refine ⟨0, le_rfl, zero_le_one, fun a => ?_⟩
      fin_cases a
      · simp [segment]; linarith
      · simp [segment]; linarith
    · have hr : |u / s| ≤ 1 := by
        rw [abs_div]; exact div_le_one_of_le₀ h4 (abs_nonneg s)
      obtain ⟨r1, r2⟩ := abs_le.1 hr
      have hus : u = u / s * s := by field_simp
      generalize u / s = r at *
      refine ⟨(1 - r) / 2, by linarith, by linarith, fun a => ?_⟩
      fin_cases a
      · simp [segment]
        linear_combination hu0 - G 1 * hus
      · simp [segment]
        linear_combination hu1 + G 0 * hus

theorem originSide_iff {s : ℝ} (hs : s ≠ 0) {G x : Pt 2} (hG : 0 < G 0 ^ 2 + G 1 ^ 2) :
    OriginSide (segment s G) x ↔ nnorm x ≤ ndist x G := by
  rw [(tie_two x G).1, OriginSide]
  have e : side (segment s G) x * side (segment s G) ![0, 0] =
      s ^ 2 * (G 0 ^ 2 + G 1 ^ 2) * (G 0 ^ 2 + G 1 ^ 2 - 2 * (x 0 * G 0 + x 1 * G 1)) := by
    simp [side, segment]; ring
  rw [e, mul_nonneg_iff_of_pos_left (by positivity), sub_nonneg]

theorem sq_pos_comb {B : Fin 2 → Pt 2} (hB : B 0 0 * B 1 1 - B 0 1 * B 1 0 ≠ 0) {c : Fin 2 → ℤ}
    (hc : c ≠ 0) : 0 < comb B c 0 ^ 2 + comb B c 1 ^ 2 := by
  refine (by positivity : (0 : ℝ) ≤ comb B c 0 ^ 2 + comb B c 1 ^ 2).lt_of_ne' fun h => hc ?_
  have h0 : comb B c 0 = 0 := by nlinarith [sq_nonneg (comb B c 0), sq_nonneg (comb B c 1)]
  have h1 : comb B c 1 = 0 := by nlinarith [sq_nonneg (comb B c 0), sq_nonneg (comb B c 1)]
  refine comb_inj2 hB (pt2_ext ?_ ?_) <;> rw [comb_two']
  · rw [← comb_two', h0, comb_two']; simp
  · rw [← comb_two', h1, comb_two']; simp

/-- The zone of an obtuse superbase: eight inequalities give all of them. -/
theorem zone_obtuse {p q r s t : ℝ} (hp : 0 ≤ p) (hq : 0 ≤ q) (hr : 0 ≤ r)
    (h1 : |s| ≤ q + p) (h2 : |t| ≤ r + p) (h3 : |s + t| ≤ q + r) (m n : ℤ) :
    s * m + t * n ≤ q * m ^ 2 + r * n ^ 2 + p * (m - n) ^ 2 := by
  have int_sq : ∀ z : ℤ, 0 ≤ z → (z : ℝ) ≤ (z : ℝ) ^ 2 := by
    intro z hz
    have : z ≤ z ^ 2 := by nlinarith
    exact_mod_cast this
  obtain ⟨s1, s2⟩ := abs_le.1 h1
  obtain ⟨t1, t2⟩ := abs_le.1 h2
  obtain ⟨u1, u2⟩ := abs_le.1 h3
  -- m n of opposite sign
  have opp : ∀ (s t : ℝ) (m n : ℤ), s ≤ q + p → -(r + p) ≤ t → 0 ≤ m → n ≤ 0 →
      s * m + t * n ≤ q * m ^ 2 + r * n ^ 2 + p * (m - n) ^ 2 := by
    intro s t m n hs ht hm hn
    have a := int_sq m hm
    have b := int_sq (-n) (by omega)
    have c := int_sq (m - n) (by omega)
    push_cast at a b c
    have hm' : (0 : ℝ) ≤ m := by exact_mod_cast hm
    have hn' : (0 : ℝ) ≤ -n := by exact_mod_cast (by omega : 0 ≤ -n)
    have k1 := mul_le_mul_of_nonneg_right hs hm'
    have k2 := mul_le_mul_of_nonneg_right (by linarith : -t ≤ r + p) hn'
    have k3 := mul_le_mul_of_nonneg_left a hq
    have k4 := mul_le_mul_of_nonneg_left b hr
    have k5 := mul_le_mul_of_nonneg_left c hp
    nlinarith
  -- m ≥ n ≥ 0
  have ge : ∀ (q r s t : ℝ) (m n : ℤ), 0 ≤ q → 0 ≤ r → s ≤ q + p → s + t ≤ q + r → 0 ≤ n → n ≤ m →
      s * m + t * n ≤ q * m ^ 2 + r * n ^ 2 + p * (m - n) ^ 2 := by
    intro q r s t m n hq hr hs hst hn hmn
    have a := int_sq m (by omega)
    have b := int_sq n hn
    have c := int_sq (m - n) (by omega)
    push_cast at a b c
    have hn' : (0 : ℝ) ≤ n := by exact_mod_cast hn
    have hmn' : (0 : ℝ) ≤ (m : ℝ) - n := by exact_mod_cast (by omega : 0 ≤ m - n)
    have k1 := mul_le_mul_of_nonneg_right hs hmn'
    have k2 := mul_le_mul_of_nonneg_right hst hn'
    have k3 := mul_le_mul_of_nonneg_left a hq
    have k4 := mul_le_mul_of_nonneg_left b hr
    have k5 := mul_le_mul_of_nonneg_left c hp
    nlinarith
  rcases le_total 0 m with hm | hm <;> rcases le_total 0 n with hn | hn
  · rcases le_total n m with h | h
    · exact ge q r s t m n hq hr s2 u2 hn h
    · have := ge r q t s n m hr hq (by linarith) (by linarith) hm h
      nlinarith
  · exact opp s t m n s2 t1 hm hn
  · have := opp (-s) (-t) (-m) (-n) (by linarith) (by linarith) (by omega) (by omega)
    push_cast at this
    nlinarith
  · rcases le_total m n with h | h
    · have := ge q r (-s) (-t) (-m) (-n) hq hr (by linarith) (by linarith) (by omega) (by omega)
      push_cast at this
      nlinarith
    · have := ge r q (-t) (-s) (-n) (-m) hr hq (by linarith) (by linarith) (by omega) (by omega)
      push_cast at this
      nlinarith

/-- The same with the products of the two vectors. -/
theorem zone_gram {A B C s t : ℝ} (hA : |B| ≤ A) (hC : |B| ≤ C)
    (h : ∀ m n : ℤ, |m| ≤ 1 → |n| ≤ 1 → s * m + t * n ≤ A * m ^ 2 + 2 * B * m * n + C * n ^ 2)
    (m n : ℤ) : s * m + t * n ≤ A * m ^ 2 + 2 * B * m * n + C * n ^ 2 := by
  have a1 := h 1 0 (by decide) (by decide)
  have a2 := h (-1) 0 (by decide) (by decide)
  have a3 := h 0 1 (by decide) (by decide)
  have a4 := h 0 (-1) (by decide) (by decide)
  have a5 := h 1 1 (by decide) (by decide)
  have a6 := h (-1) (-1) (by decide) (by decide)
  have a7 := h 1 (-1) (by decide) (by decide)
  have a8 := h (-1) 1 (by decide) (by decide)
  push_cast at a1 a2 a3 a4 a5 a6 a7 a8
  obtain ⟨b1, b2⟩ := abs_le.1 hA
  obtain ⟨c1, c2⟩ := abs_le.1 hC
  rcases le_total B 0 with hB | hB
  · have := zone_obtuse (p := -B) (q := A + B) (r := C + B) (s := s) (t := t) (by linarith)
      (by linarith) (by linarith) (abs_le.2 ⟨by linarith, by linarith⟩)
      (abs_le.2 ⟨by linarith, by linarith⟩) (abs_le.2 ⟨by linarith, by linarith⟩) m n
    nlinarith
  · have := zone_obtuse (p := B) (q := A - B) (r := C - B) (s := s) (t := -t) (by linarith)
      (by linarith) (by linarith) (abs_le.2 ⟨by linarith, by linarith⟩)
      (abs_le.2 ⟨by linarith, by linarith⟩) (abs_le.2 ⟨by linarith, by linarith⟩) m (-n)
    push_cast at this
    nlinarith

theorem tie_comb (B : Fin 2 → Pt 2) (x : Pt 2) (c : Fin 2 → ℤ) :
    nnorm x ≤ ndist x (comb B c) ↔
      2 * (x 0 * B 0 0 + x 1 * B 0 1) * c 0 + 2 * (x 0 * B 1 0 + x 1 * B 1 1) * c 1 ≤
        (B 0 0 ^ 2 + B 0 1 ^ 2) * c 0 ^ 2 + 2 * (B 0 0 * B 1 0 + B 0 1 * B 1 1) * c 0 * c 1 +
          (B 1 0 ^ 2 + B 1 1 ^ 2) * c 1 ^ 2 := by
  rw [(tie_two x _).1, comb_two', comb_two']
  constructor <;> intro h <;> linarith

end Verif.BZ

namespace Verif.BZ

open Verif.Latt Verif.LDB

/-- Without the condition, a corner of the region of the eight inequalities violates a ninth. -/
theorem zone_gram_conv_aux {A B C : ℝ} (hA : 0 < A) (hdet : B ^ 2 < A * C) (hB : A < B) :
    ∃ s t : ℝ, (∀ m n : ℤ, |m| ≤ 1 → |n| ≤ 1 →
        s * m + t * n ≤ A * m ^ 2 + 2 * B * m * n + C * n ^ 2) ∧
      ∃ m n : ℤ, ¬ s * m + t * n ≤ A * m ^ 2 + 2 * B * m * n + C * n ^ 2 := by
  have hC : B ≤ C := by nlinarith
  refine ⟨-A, C - 2 * B, fun m n hm hn => ?_, -2, 1, ?_⟩
  · obtain ⟨m1, m2⟩ := abs_le.1 hm
    obtain ⟨n1, n2⟩ := abs_le.1 hn
    interval_cases m <;> interval_cases n <;> push_cast <;> nlinarith [sq_nonneg (A - C)]
  · push_cast; nlinarith

theorem zone_gram_conv {A B C : ℝ} (hA : 0 < A) (hC : 0 < C) (hdet : B ^ 2 < A * C)
    (h : A < |B| ∨ C < |B|) :
    ∃ s t : ℝ, (∀ m n : ℤ, |m| ≤ 1 → |n| ≤ 1 →
        s * m + t * n ≤ A * m ^ 2 + 2 * B * m * n + C * n ^ 2) ∧
      ∃ m n : ℤ, ¬ s * m + t * n ≤ A * m ^ 2 + 2 * B * m * n + C * n ^ 2 := by
  have hdet' : |B| ^ 2 < A * C := by rwa [sq_abs]
  have key : ∃ s t : ℝ, (∀ m n : ℤ, |m| ≤ 1 → |n| ≤ 1 →
        s * m + t * n ≤ A * m ^ 2 + 2 * |B| * m * n + C * n ^ 2) ∧
      ∃ m n : ℤ, ¬ s * m + t * n ≤ A * m ^ 2 + 2 * |B| * m * n + C * n ^ 2 := by
    rcases h with h | h
    · exact zone_gram_conv_aux hA hdet' h
    · obtain ⟨s, t, h1, m, n, h2⟩ := zone_gram_conv_aux (C := A) hC (by linarith) h
      refine ⟨t, s, fun m n hm hn => ?_, n, m, fun h3 => h2 ?_⟩
      · have := h1 n m hn hm; linarith
      · linarith
  rcases abs_choice B with hb | hb
  · rwa [hb] at key
  · rw [hb] at key
    obtain ⟨s, t, h1, m, n, h2⟩ := key
    refine ⟨s, -t, fun m n hm hn => ?_, m, -n, fun h3 => h2 ?_⟩
    · have := h1 m (-n) hm (by rwa [abs_neg]); push_cast at this; linarith
    · push_cast at h3; linarith

/-- Any two products are those of some point. -/
theorem exists_products {B : Fin 2 → Pt 2} (hB : B 0 0 * B 1 1 - B 0 1 * B 1 0 ≠ 0) (s t : ℝ) :
    ∃ x : Pt 2, 2 * (x 0 * B 0 0 + x 1 * B 0 1) = s ∧ 2 * (x 0 * B 1 0 + x 1 * B 1 1) = t := by
  refine ⟨![(s * B 1 1 - t * B 0 1) / 2 / (B 0 0 * B 1 1 - B 0 1 * B 1 0),
    (t * B 0 0 - s * B 1 0) / 2 / (B 0 0 * B 1 1 - B 0 1 * B 1 0)], ?_, ?_⟩
  · simp
    generalize hD : B 0 0 * B 1 1 - B 0 1 * B 1 0 = D at *
    field_simp
    rw [← hD]; ring
  · simp
    generalize hD : B 0 0 * B 1 1 - B 0 1 * B 1 0 = D at *
    field_simp
    rw [← hD]; ring

/-- The drawing of `B` shows the zone exactly if `B` is not too oblique. -/
theorem shows_iff {s : ℝ} (hs : s ≠ 0) {B : Fin 2 → Pt 2}
    (hB : B 0 0 * B 1 1 - B 0 1 * B 1 0 ≠ 0) :
    ShowsZone (draw s B).lines B ↔
      |B 0 0 * B 1 0 + B 0 1 * B 1 1| ≤ B 0 0 ^ 2 + B 0 1 ^ 2 ∧
      |B 0 0 * B 1 0 + B 0 1 * B 1 1| ≤ B 1 0 ^ 2 + B 1 1 ^ 2 := by
  have hin : ∀ x, (∀ l ∈ (draw s B).lines, OriginSide l x) ↔
      ∀ c : Fin 2 → ℤ, (∀ i, |c i| ≤ 1) → nnorm x ≤ ndist x (comb B c) := by
    intro x
    simp only [draw, List.forall_mem_map, mem_box']
    constructor
    · intro h c hc
      by_cases h0 : c = 0
      · subst h0; rw [tie_comb]; simp
      · exact (originSide_iff hs (sq_pos_comb hB h0)).1 (h c ⟨hc, h0⟩)
    · intro h c hc
      exact (originSide_iff hs (sq_pos_comb hB hc.2)).2 (h c hc.1)
  have hbox : ∀ x, (∀ l ∈ (draw s B).lines, OriginSide l x) ↔ ∀ m n : ℤ, |m| ≤ 1 → |n| ≤ 1 →
      2 * (x 0 * B 0 0 + x 1 * B 0 1) * m + 2 * (x 0 * B 1 0 + x 1 * B 1 1) * n ≤
        (B 0 0 ^ 2 + B 0 1 ^ 2) * m ^ 2 + 2 * (B 0 0 * B 1 0 + B 0 1 * B 1 1) * m * n +
          (B 1 0 ^ 2 + B 1 1 ^ 2) * n ^ 2 := by
    intro x
    rw [hin]
    constructor
    · intro h m n hm hn
      have := (tie_comb B x ![m, n]).1 (h ![m, n] fun i => by fin_cases i <;> simpa)
      simpa using this
    · intro h c hc
      exact (tie_comb B x c).2 (h _ _ (hc 0) (hc 1))
  have hz : ∀ x, InFirstBZ B x ↔ ∀ m n : ℤ,
      2 * (x 0 * B 0 0 + x 1 * B 0 1) * m + 2 * (x 0 * B 1 0 + x 1 * B 1 1) * n ≤
        (B 0 0 ^ 2 + B 0 1 ^ 2) * m ^ 2 + 2 * (B 0 0 * B 1 0 + B 0 1 * B 1 1) * m * n +
          (B 1 0 ^ 2 + B 1 1 ^ 2) * n ^ 2 := by
    intro x
    constructor
    · intro h m n
      simpa using (tie_comb B x ![m, n]).1 (h ![m, n])
    · intro h c
      exact (tie_comb B x c).2 (h _ _)
  constructor
  · intro h
    by_contra hc
    rw [not_and_or, not_le, not_le] at hc
    have hdet : (B 0 0 * B 1 0 + B 0 1 * B 1 1) ^ 2 <
        (B 0 0 ^ 2 + B 0 1 ^ 2) * (B 1 0 ^ 2 + B 1 1 ^ 2) := by
      have : 0 < (B 0 0 * B 1 1 - B 0 1 * B 1 0) ^ 2 := by positivity
      nlinarith
    have hA : 0 < B 0 0 ^ 2 + B 0 1 ^ 2 := by
      refine (by positivity : (0 : ℝ) ≤ B 0 0 ^ 2 + B 0 1 ^ 2).lt_of_ne' fun e => ?_
      rw [e] at hdet; nlinarith [sq_nonneg (B 0 0 * B 1 0 + B 0 1 * B 1 1)]
    have hC : 0 < B 1 0 ^ 2 + B 1 1 ^ 2 := by
      refine (by positivity : (0 : ℝ) ≤ B 1 0 ^ 2 + B 1 1 ^ 2).lt_of_ne' fun e => ?_
      rw [e] at hdet; nlinarith [sq_nonneg (B 0 0 * B 1 0 + B 0 1 * B 1 1)]
    obtain ⟨σ, τ, h1, m, n, h2⟩ := zone_gram_conv hA hC hdet hc
    obtain ⟨x, hx0, hx1⟩ := exists_products hB σ τ
    have := (h x).1 ((hbox x).2 fun m n hm hn => by rw [hx0, hx1]; exact h1 m n hm hn)
    have := (hz x).1 this m n
    rw [hx0, hx1] at this
    exact h2 this
  · rintro ⟨h1, h2⟩ x
    rw [hbox, hz]
    exact ⟨fun h m n => zone_gram h1 h2 h m n, fun h m n _ _ => h m n⟩

end Verif.BZ
