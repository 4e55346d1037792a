import Verif.Proofs.FirstBZ
/-!
# C81-C83: the drawings of the first Brillouin zone
-/

namespace Verif.BZ

open Verif.Latt Verif.LDB

/-- **C81 (what is drawn).** For independent vectors `A` with reciprocal vectors `B`, the nine labelled
points are the combinations of `B` with coefficients -1, 0, 1, each once and labelled with its
coefficients; for each of them but the origin exactly one segment is drawn, and it consists of the points
equally far from the origin and from that point, up to `|scale|` times its length from the middle. -/
theorem C81_drawing (A B : Fin 2 → Pt 2) (hdet : A 0 0 * A 1 1 - A 0 1 * A 1 0 ≠ 0)
    (hB : IsReciprocal A B) (scale : ℝ) :
    ∃ fig, showFirstBZ A scale = .ok fig ∧
      fig.labels.Nodup ∧ fig.labels.length = 9 ∧
      (∀ c p, (c, p) ∈ fig.labels ↔ (∀ i, |c i| ≤ 1) ∧ p = comb B c) ∧
      fig.lines.Nodup ∧ fig.lines.length = 8 ∧
      ∀ c : Fin 2 → ℤ, (∀ i, |c i| ≤ 1) → c ≠ 0 → ∃! l, l ∈ fig.lines ∧
        (∀ a, (l.1 a + l.2 a) / 2 = comb B c a / 2) ∧
        ∀ x, OnSegment l x ↔ ndist x (comb B c) = nnorm x ∧
          ndist x (fun a => comb B c a / 2) ≤ |scale| * nnorm (comb B c) := by
  have e := eq_bs hdet hB
  subst e
  have hB' := det_bs hdet
  refine ⟨_, show_ok_iff.2 ⟨hdet, rfl⟩, ?_, rfl, ?_, ?_, rfl, ?_⟩
  · exact (nodup_mesh _ (nodup_pyRange _ _) 2).map fun c d h => (Prod.ext_iff.1 h).1
  · intro c p
    simp only [draw, List.mem_map, Prod.mk.injEq]
    constructor
    · rintro ⟨d, hd, rfl, rfl⟩; exact ⟨mem_box.1 hd, rfl⟩
    · rintro ⟨h, rfl⟩; exact ⟨c, mem_box.2 h, rfl, rfl⟩
  · exact ((nodup_mesh _ (nodup_pyRange _ _) 2).filter _).map fun c d h =>
      comb_inj2 hB' (segment_inj h)
  · intro c hc h0
    have hmid : (fun a => comb (bsCalculator A) c a / 2) =
        ![comb (bsCalculator A) c 0 / 2, comb (bsCalculator A) c 1 / 2] := pt2_ext rfl rfl
    refine ⟨segment scale (comb (bsCalculator A) c), ⟨?_, ?_, ?_⟩, ?_⟩
    · exact List.mem_map.2 ⟨c, mem_box'.2 ⟨hc, h0⟩, rfl⟩
    · intro a; rw [segment_mid]
    · intro x
      rw [onSegment_iff (sq_pos_comb hB' h0), hmid]
    · rintro l ⟨hl, hm, -⟩
      obtain ⟨d, -, rfl⟩ := List.mem_map.1 hl
      have : comb (bsCalculator A) d = comb (bsCalculator A) c := by
        funext a
        have := hm a
        rw [segment_mid] at this
        linarith
      rw [this]

/-- The square lattice. -/
example : (![![1, 0], ![0, 1]] : Fin 2 → Pt 2) 0 0 * (![![1, 0], ![0, 1]] : Fin 2 → Pt 2) 1 1 -
    (![![1, 0], ![0, 1]] : Fin 2 → Pt 2) 0 1 * (![![1, 0], ![0, 1]] : Fin 2 → Pt 2) 1 0 ≠ 0 ∧
    IsReciprocal ![![1, 0], ![0, 1]] ![![2 * Real.pi, 0], ![0, 2 * Real.pi]] := by
  refine ⟨by simp, fun i j => ?_⟩
  fin_cases i <;> fin_cases j <;> simp

/-- **C81 (errors).** The call raises AssertionError exactly for arrays that are not two by two, and
LinAlgError exactly for two by two arrays with dependent rows. -/
theorem C81_errors {r c : ℕ} (As : Fin r → Pt c) (scale : ℝ) :
    (showFirstBZ As scale = .error .assertionError ↔ ¬(r = 2 ∧ c = 2)) ∧
    (showFirstBZ As scale = .error .linAlgError ↔ r = 2 ∧ c = 2 ∧
      ∃ u : Fin r → ℝ, u ≠ 0 ∧ ∀ a, ∑ i, u i * As i a = 0) ∧
    ∀ e, showFirstBZ As scale = .error e → e = .assertionError ∨ e = .linAlgError := by
  by_cases h : r = 2 ∧ c = 2
  · obtain ⟨rfl, rfl⟩ := h
    have hdep : As 0 0 * As 1 1 - As 0 1 * As 1 0 = 0 ↔
        ∃ u : Fin 2 → ℝ, u ≠ 0 ∧ ∀ a, ∑ i, u i * As i a = 0 := by
      constructor
      · intro hd
        by_cases h0 : As 0 = 0
        · refine ⟨![1, 0], fun e => by simpa using congrFun e 0, fun a => ?_⟩
          rw [Fin.sum_univ_two, h0]; simp
        · by_cases h00 : As 0 0 = 0
          · have h01 : As 0 1 ≠ 0 := fun e => h0 (pt2_ext h00 e)
            refine ⟨![As 1 1, -As 0 1], fun e => h01 (by simpa using congrFun e 1), fun a => ?_⟩
            rw [Fin.sum_univ_two]
            fin_cases a
            · simp; linarith
            · simp; ring
          · refine ⟨![As 1 0, -As 0 0], fun e => h00 (by simpa using congrFun e 1), fun a => ?_⟩
            rw [Fin.sum_univ_two]
            fin_cases a
            · simp; ring
            · simp; linarith
      · rintro ⟨u, hu, he⟩
        have e0 := he 0
        have e1 := he 1
        rw [Fin.sum_univ_two] at e0 e1
        by_contra hd
        apply hu
        funext i
        fin_cases i
        · exact (mul_eq_zero.1 (by linear_combination As 1 1 * e0 - As 1 0 * e1 :
            u 0 * (As 0 0 * As 1 1 - As 0 1 * As 1 0) = 0)).resolve_right hd
        · exact (mul_eq_zero.1 (by linear_combination As 0 0 * e1 - As 0 1 * e0 :
            u 1 * (As 0 0 * As 1 1 - As 0 1 * As 1 0) = 0)).resolve_right hd
    rw [← hdep]
    unfold showFirstBZ
    rw [dif_pos ⟨rfl, rfl⟩]
    by_cases hd : As 0 0 * As 1 1 - As 0 1 * As 1 0 = 0
    · simp [hd, raise]
    · simp [hd]
  · unfold showFirstBZ
    rw [dif_neg h]
    refine ⟨by simp [raise, h], ?_, fun e he => .inl ?_⟩
    · simp only [raise, Except.error.injEq, reduceCtorEq, false_iff]
      exact fun g => h ⟨g.1, g.2.1⟩
    · simpa [raise, eq_comm] using he

example : showFirstBZ (![![1, 2], ![2, 4]] : Fin 2 → Pt 2) 1 = .error .linAlgError :=
  (C81_errors _ 1).2.1.2 ⟨rfl, rfl, ![2, -1], fun e => by simpa using congrFun e 1, fun a => by
    rw [Fin.sum_univ_two]; fin_cases a <;> norm_num⟩

/-- **C82 (the inside).** No drawn line cuts the first Brillouin zone: its points all lie on the same
side of every drawn line as the origin. -/
theorem C82_inside (A B : Fin 2 → Pt 2) (hB : IsReciprocal A B) {scale : ℝ} {fig : Figure}
    (h : showFirstBZ A scale = .ok fig) (x : Pt 2) (hx : InFirstBZ B x) :
    ∀ l ∈ fig.lines, OriginSide l x := by
  obtain ⟨hdet, rfl⟩ := show_ok_iff.1 h
  have e := eq_bs hdet hB
  subst e
  intro l hl
  obtain ⟨c, hc, rfl⟩ := List.mem_map.1 hl
  by_cases hs : scale = 0
  · subst hs; simp [OriginSide, side, segment]
  · exact (originSide_iff hs (sq_pos_comb (det_bs hdet) (mem_box'.1 hc).2)).2 (hx c)

/-- **C82 (partial).** The English claim (the region around the origin bounded by the drawn lines is the
first Brillouin zone) holds exactly for translation vectors that are not too oblique: the product of the
two must not exceed the square of either.  (Missing: the other vectors, see `C82_zone_violated`.) -/
theorem C82_zone_partial (A B : Fin 2 → Pt 2) (hB : IsReciprocal A B) {scale : ℝ} (hs : scale ≠ 0)
    {fig : Figure} (h : showFirstBZ A scale = .ok fig) :
    ShowsZone fig.lines B ↔
      |A 0 0 * A 1 0 + A 0 1 * A 1 1| ≤ A 0 0 ^ 2 + A 0 1 ^ 2 ∧
      |A 0 0 * A 1 0 + A 0 1 * A 1 1| ≤ A 1 0 ^ 2 + A 1 1 ^ 2 := by
  obtain ⟨hdet, rfl⟩ := show_ok_iff.1 h
  have e := eq_bs hdet hB
  subst e
  rw [shows_iff hs (det_bs hdet), bs_two]
  have hw : 0 < (2 * Real.pi / (A 0 0 * A 1 1 - A 0 1 * A 1 0)) ^ 2 := by
    have := Real.pi_pos
    positivity
  generalize 2 * Real.pi / (A 0 0 * A 1 1 - A 0 1 * A 1 0) = w at hw
  simp only [Matrix.cons_val_zero, Matrix.cons_val_one, Matrix.cons_val_fin_one]
  have e1 : w * A 1 1 * -(w * A 0 1) + -(w * A 1 0) * (w * A 0 0) =
      w ^ 2 * -(A 0 0 * A 1 0 + A 0 1 * A 1 1) := by ring
  have e2 : (w * A 1 1) ^ 2 + (-(w * A 1 0)) ^ 2 = w ^ 2 * (A 1 0 ^ 2 + A 1 1 ^ 2) := by ring
  have e3 : (-(w * A 0 1)) ^ 2 + (w * A 0 0) ^ 2 = w ^ 2 * (A 0 0 ^ 2 + A 0 1 ^ 2) := by ring
  rw [e1, e2, e3, abs_mul, abs_neg, abs_of_pos hw, mul_le_mul_iff_right₀ hw,
    mul_le_mul_iff_right₀ hw, and_comm]

/-- The zone of the triangular lattice is shown. -/
example : ∃ fig, showFirstBZ zoneAs 1 = .ok fig ∧ ShowsZone fig.lines (bsCalculator zoneAs) := by
  have h3 := r3_sq
  have hp := r3_pos
  have hdet : zoneAs 0 0 * zoneAs 1 1 - zoneAs 0 1 * zoneAs 1 0 ≠ 0 := by
    simp [zoneAs, hp.ne']
  refine ⟨_, show_ok_iff.2 ⟨hdet, rfl⟩, ?_⟩
  refine (C82_zone_partial _ _ (recip_bs hdet) one_ne_zero (show_ok_iff.2 ⟨hdet, rfl⟩)).2 ⟨?_, ?_⟩
  · simp only [zoneAs, Matrix.cons_val_zero, Matrix.cons_val_one, Matrix.cons_val_fin_one]
    rw [abs_le]; constructor <;> nlinarith
  · simp only [zoneAs, Matrix.cons_val_zero, Matrix.cons_val_one, Matrix.cons_val_fin_one]
    rw [abs_le]; constructor <;> nlinarith

/-- **C82 (violated).** For the translation vectors (1, 0) and (3, 1), which generate the square lattice,
the region bounded by the drawn lines is not the first Brillouin zone. -/
theorem C82_zone_violated : ∃ (A B : Fin 2 → Pt 2) (fig : Figure), IsReciprocal A B ∧
    showFirstBZ A 1 = .ok fig ∧ ¬ ShowsZone fig.lines B := by
  have hdet : (![![1, 0], ![3, 1]] : Fin 2 → Pt 2) 0 0 * (![![1, 0], ![3, 1]] : Fin 2 → Pt 2) 1 1 -
    (![![1, 0], ![3, 1]] : Fin 2 → Pt 2) 0 1 * (![![1, 0], ![3, 1]] : Fin 2 → Pt 2) 1 0 ≠ 0 := by simp
  refine ⟨![![1, 0], ![3, 1]], _, _, recip_bs hdet, show_ok_iff.2 ⟨hdet, rfl⟩, fun h => ?_⟩
  have := ((C82_zone_partial _ _ (recip_bs hdet) one_ne_zero (show_ok_iff.2 ⟨hdet, rfl⟩)).1 h).1
  norm_num at this

/-- **C83 (constants).** The reciprocal vectors written down in the script are those of its translation
vectors, and the points marked M and K are exactly the middles of the edges and the corners of the first
Brillouin zone, each once. -/
theorem C83_points : IsReciprocal zoneAs zoneBs ∧
    (∀ k, ("M", k) ∈ zoneMarks ↔ IsEdgeMiddle zoneBs k) ∧
    (∀ k, ("K", k) ∈ zoneMarks ↔ IsCorner zoneBs k) ∧
    (∀ k, ("Γ", k) ∈ zoneMarks ↔ k = 0) ∧ zoneMarks.Nodup := by
  have h3 := r3_sq
  have hp := r3_pos
  have hpi := Real.pi_pos
  have hi := inv_r3
  have hdet : zoneAs 0 0 * zoneAs 1 1 - zoneAs 0 1 * zoneAs 1 0 ≠ 0 := by
    simp [zoneAs, hp.ne']
  have hrec : IsReciprocal zoneAs zoneBs := by
    intro i j
    fin_cases i <;> fin_cases j <;> simp [zoneAs, zoneBs] <;> field_simp <;> ring
  have eB := eq_bs hdet hrec
  have hhex := fun k => C67_hexagon zoneAs hdet
    (by simp [gram, zoneAs, Fin.sum_univ_two]; nlinarith)
    (by simp [gram, zoneAs, Fin.sum_univ_two]) k
  rw [← eB] at hhex
  have sym : ∀ (c : Fin 2 → ℤ) (d : ℝ), symPoint zoneBs c d =
      ![2 * Real.pi * c 0 / d, 2 * Real.pi * (2 * c 1 - c 0) / r3 / d] := by
    intro c d
    refine pt2_ext ?_ ?_
    · simp [symPoint, comb_two', zoneBs]; ring
    · simp [symPoint, comb_two', zoneBs]; ring
  have hM : ∀ k, k ∈ zoneMs ↔ k ∈ hexMs zoneAs := by
    intro k
    rw [hexMs, ← eB]
    have p1 : (fun a => Real.pi * (![-1, 1 / r3] : Pt 2) a) = symPoint zoneBs ![-1, 0] 2 := by
      rw [sym]; refine pt2_ext ?_ ?_ <;> simp <;> ring
    have p2 : (fun a => Real.pi * (![0, 2 / r3] : Pt 2) a) = symPoint zoneBs ![0, 1] 2 := by
      rw [sym]; refine pt2_ext ?_ ?_ <;> simp <;> ring
    have p3 : (fun a => Real.pi * (![1, 1 / r3] : Pt 2) a) = symPoint zoneBs ![1, 1] 2 := by
      rw [sym]; refine pt2_ext ?_ ?_ <;> simp <;> ring
    have p4 : (fun a => Real.pi * (![1, -1 / r3] : Pt 2) a) = symPoint zoneBs ![1, 0] 2 := by
      rw [sym]; refine pt2_ext ?_ ?_ <;> simp <;> ring
    have p5 : (fun a => Real.pi * (![0, -2 / r3] : Pt 2) a) = symPoint zoneBs ![0, -1] 2 := by
      rw [sym]; refine pt2_ext ?_ ?_ <;> simp <;> ring
    have p6 : (fun a => Real.pi * (![-1, -1 / r3] : Pt 2) a) = symPoint zoneBs ![-1, -1] 2 := by
      rw [sym]; refine pt2_ext ?_ ?_ <;> simp <;> ring
    simp only [zoneMs, List.map_cons, List.map_nil, List.mem_cons, List.not_mem_nil, or_false,
      p1, p2, p3, p4, p5, p6, hexMs60]
    tauto
  have hK : ∀ k, k ∈ zoneKs ↔ k ∈ hexKs zoneAs := by
    intro k
    rw [hexKs, ← eB]
    have hr : r3 ≠ 0 := hp.ne'
    have p1 : (fun a => 2 * Real.pi * (![-2 / 3, 0] : Pt 2) a) = symPoint zoneBs ![-2, -1] 3 := by
      rw [sym]; refine pt2_ext ?_ ?_ <;> simp <;> ring
    have p2 : (fun a => 2 * Real.pi * (![-1 / 3, 1 / r3] : Pt 2) a) = symPoint zoneBs ![-1, 1] 3 := by
      rw [sym]; refine pt2_ext ?_ ?_ <;> simp <;> ring
    have p3 : (fun a => 2 * Real.pi * (![1 / 3, 1 / r3] : Pt 2) a) = symPoint zoneBs ![1, 2] 3 := by
      rw [sym]; refine pt2_ext ?_ ?_ <;> simp <;> ring
    have p4 : (fun a => 2 * Real.pi * (![2 / 3, 0] : Pt 2) a) = symPoint zoneBs ![2, 1] 3 := by
      rw [sym]; refine pt2_ext ?_ ?_ <;> simp <;> ring
    have p5 : (fun a => 2 * Real.pi * (![1 / 3, -1 / r3] : Pt 2) a) = symPoint zoneBs ![1, -1] 3 := by
      rw [sym]; refine pt2_ext ?_ ?_ <;> simp <;> ring
    have p6 : (fun a => 2 * Real.pi * (![-1 / 3, -1 / r3] : Pt 2) a) = symPoint zoneBs ![-1, -2] 3 := by
      rw [sym]; refine pt2_ext ?_ ?_ <;> simp <;> ring
    simp only [zoneKs, List.map_cons, List.map_nil, List.mem_cons, List.not_mem_nil, or_false,
      p1, p2, p3, p4, p5, p6, hexKs60]
    tauto
  have ne : ∀ x y x' y' : ℝ, (x ≠ x' ∨ y ≠ y') → (![x, y] : Pt 2) ≠ ![x', y'] := by
    rintro x y x' y' h e
    have e0 := congrFun e 0
    have e1 := congrFun e 1
    simp at e0 e1
    tauto
  have hr : 0 < 1 / r3 := by positivity
  have s1 : (-1 : ℝ) / r3 = -(1 / r3) := by ring
  have s2 : (-2 : ℝ) / r3 = -(2 * (1 / r3)) := by ring
  have s3 : (2 : ℝ) / r3 = 2 * (1 / r3) := by ring
  have hMn : zoneMs.Nodup := by
    refine List.Nodup.map (fun p q h => ?_) ?_
    · funext a
      exact mul_left_cancel₀ hpi.ne' (congrFun h a)
    · rw [s1, s2, s3]
      generalize 1 / r3 = w at hr
      simp only [List.nodup_cons, List.mem_cons, List.not_mem_nil, or_false, not_or, not_false_eq_true,
        List.nodup_nil, and_true]
      and_intros <;> first
        | (refine ne _ _ _ _ (.inl ?_); norm_num; done)
        | (refine ne _ _ _ _ (.inr ?_); intro e; linarith)
  have hKn : zoneKs.Nodup := by
    refine List.Nodup.map (fun p q h => ?_) ?_
    · funext a
      exact mul_left_cancel₀ (by positivity : (2 * Real.pi) ≠ 0) (congrFun h a)
    · rw [s1]
      generalize 1 / r3 = w at hr
      simp only [List.nodup_cons, List.mem_cons, List.not_mem_nil, or_false, not_or, not_false_eq_true,
        List.nodup_nil, and_true]
      and_intros <;> first
        | (refine ne _ _ _ _ (.inl ?_); norm_num; done)
        | (refine ne _ _ _ _ (.inr ?_); intro e; linarith)
  have hinj : ∀ s : String, Function.Injective fun p : Pt 2 => (s, p) :=
    fun s p q h => (Prod.ext_iff.1 h).2
  refine ⟨hrec, fun k => ?_, fun k => ?_, fun k => ?_, ?_⟩
  · rw [← (hhex k).1, ← hM]; simp [zoneMarks]
  · rw [← (hhex k).2, ← hK]; simp [zoneMarks]
  · have : (![0, 0] : Pt 2) = 0 := pt2_ext rfl rfl
    simp [zoneMarks, this]
  · rw [zoneMarks, List.cons_append, List.nodup_cons]
    refine ⟨by simp, (hMn.map (hinj _)).append (hKn.map (hinj _)) ?_⟩
    intro p h1 h2
    obtain ⟨x, -, rfl⟩ := List.mem_map.1 h1
    obtain ⟨y, -, h⟩ := List.mem_map.1 h2
    have := (Prod.ext_iff.1 h).1
    simp at this

/-- The point M above the origin is marked. -/
example : ("M", (fun a => Real.pi * (![0, 2 / r3] : Pt 2) a)) ∈ zoneMarks := by
  simp [zoneMarks, zoneMs]

/-- **C83 (lines).** The region bounded by the lines of the script is the first Brillouin zone, and its
whole boundary lies on the drawn segments. -/
theorem C83_lines : ShowsZone zoneFigure.lines zoneBs ∧
    ∀ x, OnBoundary zoneBs x → ∃ l ∈ zoneFigure.lines, OnSegment l x := by
  have h3 := r3_sq
  have hp := r3_pos
  have hpi := Real.pi_pos
  have hdet : zoneAs 0 0 * zoneAs 1 1 - zoneAs 0 1 * zoneAs 1 0 ≠ 0 := by
    simp [zoneAs, hp.ne']
  have hrec := C83_points.1
  have eB := eq_bs hdet hrec
  have g1 : gram zoneAs 0 0 = gram zoneAs 1 1 := by simp [gram, zoneAs, Fin.sum_univ_two]; nlinarith
  have g2 : 2 * gram zoneAs 0 1 = gram zoneAs 0 0 := by simp [gram, zoneAs, Fin.sum_univ_two]
  obtain ⟨κ, z, g00, g11, g01, g10⟩ := zone_hex hdet g1 g2
  rw [← eB] at z g00 g11 g01 g10
  have hBdet := z.det
  have hk := z.pos
  simp only [gram, Fin.sum_univ_two] at g00 g11 g01
  constructor
  · refine (shows_iff one_ne_zero hBdet).2 ⟨?_, ?_⟩
    · rw [g01, abs_neg, abs_of_pos (by positivity)]; nlinarith
    · rw [g01, abs_neg, abs_of_pos (by positivity)]; nlinarith
  · rintro x ⟨hx, c, hc, ht⟩
    have hzone := hex_zone.1 ((z.inZone x).1 hx)
    have htie := (z.cmp x c).2.1.1 ht
    obtain ⟨b1, b2, b3, b4, b5⟩ := hex_tie hzone.1 hzone.2.1 hzone.2.2 htie
    have hbox : ∀ i, |c i| ≤ 1 := by
      intro i; fin_cases i
      · exact abs_le.2 ⟨b1, b2⟩
      · exact abs_le.2 ⟨b3, b4⟩
    refine ⟨segment 1 (comb zoneBs c), List.mem_map.2 ⟨c, mem_box'.2 ⟨hbox, hc⟩, rfl⟩, ?_⟩
    have hG := sq_pos_comb hBdet hc
    rw [onSegment_iff hG]
    refine ⟨ht, ?_⟩
    -- the length of the reciprocal vector
    have hGk : comb zoneBs c 0 ^ 2 + comb zoneBs c 1 ^ 2 = κ * qh (c 0) (c 1) := by
      rw [← z.form, comb_two', comb_two']
      simp only [gram, Fin.sum_univ_two]
      ring
    have hq : (1 : ℝ) ≤ qh (c 0) (c 1) := by
      have : qh (c 0) (c 1) ≠ 0 := by
        intro h0
        rw [h0] at hGk
        simp at hGk
        exact hG.ne' hGk
      have h' : 0 ≤ qh (c 0) (c 1) := by
        unfold qh; nlinarith [sq_nonneg (c 0 - c 1), sq_nonneg (c 0), sq_nonneg (c 1)]
      exact_mod_cast (by omega : 1 ≤ qh (c 0) (c 1))
    -- the length of the point
    have hxk : x 0 ^ 2 + x 1 ^ 2 ≤ κ / 2 := by
      obtain ⟨hs, htt, hst⟩ := hzone
      have hs' := sq_le_one_iff_abs_le_one _ |>.2 hs
      have ht' := sq_le_one_iff_abs_le_one _ |>.2 htt
      have hst' := sq_le_one_iff_abs_le_one _ |>.2 hst
      have hd2 : (zoneBs 0 0 * zoneBs 1 1 - zoneBs 0 1 * zoneBs 1 0) ^ 2 = 3 / 4 * κ ^ 2 := by
        have : (zoneBs 0 0 * zoneBs 1 1 - zoneBs 0 1 * zoneBs 1 0) ^ 2 =
            (zoneBs 0 0 * zoneBs 0 0 + zoneBs 0 1 * zoneBs 0 1) *
              (zoneBs 1 0 * zoneBs 1 0 + zoneBs 1 1 * zoneBs 1 1) -
            (zoneBs 0 0 * zoneBs 1 0 + zoneBs 0 1 * zoneBs 1 1) ^ 2 := by ring
        rw [this, g00, g11, g01]; ring
      have hX : (x 0 ^ 2 + x 1 ^ 2) * (zoneBs 0 0 * zoneBs 1 1 - zoneBs 0 1 * zoneBs 1 0) ^ 2 =
          (zoneBs 1 0 * zoneBs 1 0 + zoneBs 1 1 * zoneBs 1 1) * dot x (zoneBs 0) ^ 2 -
          2 * (zoneBs 0 0 * zoneBs 1 0 + zoneBs 0 1 * zoneBs 1 1) * dot x (zoneBs 0) * dot x (zoneBs 1)
          + (zoneBs 0 0 * zoneBs 0 0 + zoneBs 0 1 * zoneBs 0 1) * dot x (zoneBs 1) ^ 2 := by
        simp only [dot, Fin.sum_univ_two]; ring
      rw [hd2, g00, g11, g01] at hX
      have e0 : dot x (zoneBs 0) = 2 * dot x (zoneBs 0) / κ * (κ / 2) := by field_simp
      have e1 : dot x (zoneBs 1) = 2 * dot x (zoneBs 1) / κ * (κ / 2) := by field_simp
      rw [e0, e1] at hX
      generalize 2 * dot x (zoneBs 0) / κ = s at *
      generalize 2 * dot x (zoneBs 1) / κ = t at *
      have hX' : (x 0 ^ 2 + x 1 ^ 2) * κ ^ 2 = κ ^ 2 * (κ / 3 * (s ^ 2 + s * t + t ^ 2)) := by
        linear_combination (4 / 3 : ℝ) * hX
      have hX'' : x 0 ^ 2 + x 1 ^ 2 = κ / 3 * (s ^ 2 + s * t + t ^ 2) :=
        mul_right_cancel₀ (by positivity : κ ^ 2 ≠ 0) (by rw [hX']; ring)
      have h6 : s ^ 2 + s * t + t ^ 2 ≤ 3 / 2 := by linarith [hs', ht', hst', add_sq s t]
      rw [hX'']
      have := mul_le_mul_of_nonneg_left h6 (by positivity : 0 ≤ κ / 3)
      linarith
    have h0 : 0 ≤ ndist x ![comb zoneBs c 0 / 2, comb zoneBs c 1 / 2] := Real.sqrt_nonneg _
    rw [abs_one, one_mul, ← sq_le_sq₀ h0 (nnorm_nonneg _), nnorm_sq_two, ndist_sq_two]
    have h2 := (tie_two x (comb zoneBs c)).2.1 ht
    have h4 : κ ≤ comb zoneBs c 0 ^ 2 + comb zoneBs c 1 ^ 2 := by
      rw [hGk]; exact le_mul_of_one_le_right hk.le hq
    simp only [Matrix.cons_val_zero, Matrix.cons_val_one, Matrix.cons_val_fin_one]
    generalize comb zoneBs c = G at *
    have h5 : (x 0 - G 0 / 2) ^ 2 + (x 1 - G 1 / 2) ^ 2 =
        x 0 ^ 2 + x 1 ^ 2 - (x 0 * G 0 + x 1 * G 1) + (G 0 ^ 2 + G 1 ^ 2) / 4 := by ring
    rw [h5]
    linarith

/-- The boundary is not empty: the middle of an edge is on it. -/
example : OnBoundary zoneBs (fun a => Real.pi * (![0, 2 / r3] : Pt 2) a) := by
  obtain ⟨-, hM, -⟩ := C83_points
  obtain ⟨c, h0, h2, h3⟩ := (hM (fun a => Real.pi * (![0, 2 / r3] : Pt 2) a)).1
    (by simp [zoneMarks, zoneMs])
  have he : ndist (fun a => Real.pi * (![0, 2 / r3] : Pt 2) a) (comb zoneBs c) =
      nnorm (fun a => Real.pi * (![0, 2 / r3] : Pt 2) a) := by
    rw [(tie_two _ _).2, ← h2]; ring
  refine ⟨fun d => ?_, c, h0, he⟩
  by_cases hd : d = 0
  · subst hd; rw [tie_comb]; simp
  · by_cases hdc : d = c
    · subst hdc; exact he.ge
    · exact (h3 d hd hdc).le

end Verif.BZ
