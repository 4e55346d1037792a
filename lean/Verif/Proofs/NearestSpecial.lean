import Verif.Proofs.NearestCells
/-!
Helper lemmas: nearest neighbours of the special clusters (for C94).
-/

namespace Verif.LDB

open Verif.Latt

variable {prec : ℕ} {S : Set (Pt 2)} {d : ℝ}

/-- The finite question about a special cluster: `nn` bounds the nearest-neighbour relation of the
parent lattice, `(s, s', δ)` is one nearest-neighbour pair. -/
def NearCheck (D : ℕ) (zs : List (ℤ × ℤ × ℕ)) (w0 w1 : ℤ × ℤ) (nn : ℕ → ℕ → ℤ → ℤ → Bool)
    (s s' : ℕ) (δ : ℤ × ℤ) : Prop :=
  (∀ z ∈ zs, ∀ z' ∈ zs, ∀ a ∈ [(-1 : ℤ), 0, 1], ∀ b ∈ [(-1 : ℤ), 0, 1], nn z.2.2 z'.2.2 a b = true →
    hits D w0 w1 (a - z.1 + z'.1, b - z.2.1 + z'.2.1) →
    |(a - z.1 + z'.1) * w1.2 - (b - z.2.1 + z'.2.1) * w1.1| ≤ (D : ℤ) ∧
      |w0.1 * (b - z.2.1 + z'.2.1) - w0.2 * (a - z.1 + z'.1)| ≤ (D : ℤ)) ∧
  (∃ z ∈ zs, ∃ z' ∈ zs, ∃ a ∈ [(-1 : ℤ), 0, 1], ∃ b ∈ [(-1 : ℤ), 0, 1], (a ≠ 0 ∨ b ≠ 0) ∧
    z.2.2 = s ∧ z'.2.2 = s' ∧ z.1 + (a * w0.1 + b * w1.1) - z'.1 = δ.1 ∧
    z.2.1 + (a * w0.2 + b * w1.2) - z'.2.1 = δ.2) ∧
  ∃ z ∈ zs, ∃ z' ∈ zs, z.2.2 = s ∧ z'.2.2 = s' ∧ z.1 - z'.1 = δ.1 ∧ z.2.1 - z'.2.1 = δ.2

instance (D : ℕ) (zs : List (ℤ × ℤ × ℕ)) (w0 w1 : ℤ × ℤ) (nn : ℕ → ℕ → ℤ → ℤ → Bool)
    (s s' : ℕ) (δ : ℤ × ℤ) : Decidable (NearCheck D zs w0 w1 nn s s' δ) := by
  unfold NearCheck; infer_instance

theorem mem_three {a : ℤ} (h : |a| ≤ 1) : a ∈ [(-1 : ℤ), 0, 1] := by
  rw [abs_le] at h
  simp only [List.mem_cons, List.not_mem_nil, or_false]
  omega

theorem nearest_special {τ : List (Pt 2)} {e : Fin 2 → Pt 2} (hc : CellData S τ e d)
    {D : ℕ} {zs : List (ℤ × ℤ × ℕ)} {w0 w1 : ℤ × ℤ} (hD : w0.1 * w1.2 - w0.2 * w1.1 = (D : ℤ))
    (hD0 : D ≠ 0) (hsub : ∀ q ∈ zs, q.2.2 < τ.length) {nn : ℕ → ℕ → ℤ → ℤ → Bool} {s s' : ℕ} {δ : ℤ × ℤ}
    (hnn : ∀ s s', s < τ.length → s' < τ.length → ∀ a b : ℤ,
      ndist (τ.getD s 0 + comb e ![a, b]) (τ.getD s' 0) = d → nn s s' a b = true)
    (hδ : ndist (τ.getD s 0 + comb e ![δ.1, δ.2]) (τ.getD s' 0) = d)
    (hchk : NearCheck D zs w0 w1 nn s s' δ) {t : Pt 2} {count : ℕ} {points : Fin count → Pt 2}
    (ht : ExactTiling (shifted t S) points ![comb e ![w0.1, w0.2], comb e ![w1.1, w1.2]])
    (hp : ∀ p, (∃ i, points i = p) ↔ ∃ z ∈ zs, p = place τ e z + t) :
    NearestData (shifted t S) points ![comb e ![w0.1, w0.2], comb e ![w1.1, w1.2]] d := by
  obtain ⟨hbox, hout, hin⟩ := hchk
  have hD0' : (D : ℤ) ≠ 0 := by exact_mod_cast hD0
  have hD1 : (0 : ℤ) < D := by omega
  have hcomb : ∀ c : Fin 2 → ℤ, comb ![comb e ![w0.1, w0.2], comb e ![w1.1, w1.2]] c =
      comb e ![c 0 * w0.1 + c 1 * w1.1, c 0 * w0.2 + c 1 * w1.2] := by
    intro c
    funext a
    rw [comb_two', comb_two']
    simp only [Matrix.cons_val_zero, Matrix.cons_val_one]
    rw [comb_two', comb_two']
    simp only [Matrix.cons_val_zero, Matrix.cons_val_one]
    push_cast; ring
  have hτmem : ∀ s, s < τ.length → τ.getD s 0 ∈ τ := fun s hs => by
    rw [List.getD_eq_getElem?_getD, List.getElem?_eq_getElem hs, Option.getD_some]
    exact List.getElem_mem hs
  -- distances of cluster points in parent coordinates
  have hdist : ∀ (z z' : ℤ × ℤ × ℕ) (c : Fin 2 → ℤ),
      ndist (place τ e z + t + comb ![comb e ![w0.1, w0.2], comb e ![w1.1, w1.2]] c) (place τ e z' + t) =
      ndist (τ.getD z.2.2 0 + comb e ![z.1 + (c 0 * w0.1 + c 1 * w1.1) - z'.1,
        z.2.1 + (c 0 * w0.2 + c 1 * w1.2) - z'.2.1]) (τ.getD z'.2.2 0) := by
    intro z z' c
    have e1 : (![z.1 + (c 0 * w0.1 + c 1 * w1.1) - z'.1,
        z.2.1 + (c 0 * w0.2 + c 1 * w1.2) - z'.2.1] : Fin 2 → ℤ) =
        ![z.1, z.2.1] + ![c 0 * w0.1 + c 1 * w1.1, c 0 * w0.2 + c 1 * w1.2] - ![z'.1, z'.2.1] := by
      refine int2_ext ?_ ?_ <;> simp
    rw [e1, hcomb, comb_sub, comb_add, ndist_eq, ndist_eq, place, place]
    congr 1; abel
  refine ⟨ht, hc.pos, ?_, ?_, ?_, ?_⟩
  · intro x hx y hy hxy
    have := hc.gap _ hx _ hy (fun h => hxy (sub_left_injective h))
    have e2 : ndist (x - t) (y - t) = ndist x y := by
      rw [ndist_eq, ndist_eq]; congr 1; abel
    rwa [e2] at this
  · intro i j c h
    obtain ⟨z, hz, hi⟩ := (hp _).1 ⟨i, rfl⟩
    obtain ⟨z', hz', hj⟩ := (hp _).1 ⟨j, rfl⟩
    rw [hi, hj, hdist] at h
    have hb := hc.box _ (hτmem _ (hsub z hz)) _ (hτmem _ (hsub z' hz')) _ h
    have hb0 := hb 0
    have hb1 := hb 1
    simp only [Matrix.cons_val_zero, Matrix.cons_val_one, Matrix.cons_val_fin_one] at hb0 hb1
    have e0 : (z.1 + (c 0 * w0.1 + c 1 * w1.1) - z'.1) - z.1 + z'.1 = c 0 * w0.1 + c 1 * w1.1 := by ring
    have e1 : (z.2.1 + (c 0 * w0.2 + c 1 * w1.2) - z'.2.1) - z.2.1 + z'.2.1 = c 0 * w0.2 + c 1 * w1.2 := by
      ring
    have := hbox z hz z' hz' _ (mem_three hb0) _ (mem_three hb1)
      (hnn _ _ (hsub z hz) (hsub z' hz') _ _ h)
    rw [e0, e1] at this
    have := this ((hits_iff hD hD0' _).2 ⟨c, rfl, rfl⟩)
    obtain ⟨h0, h1⟩ := this
    have f0 : (c 0 * w0.1 + c 1 * w1.1) * w1.2 - (c 0 * w0.2 + c 1 * w1.2) * w1.1 = c 0 * D := by
      rw [← hD]; ring
    have f1 : w0.1 * (c 0 * w0.2 + c 1 * w1.2) - w0.2 * (c 0 * w0.1 + c 1 * w1.1) = c 1 * D := by
      rw [← hD]; ring
    rw [f0, abs_mul, abs_of_pos hD1] at h0
    rw [f1, abs_mul, abs_of_pos hD1] at h1
    have b0 : |c 0| ≤ 1 := le_of_mul_le_mul_right (by linarith) hD1
    have b1 : |c 1| ≤ 1 := le_of_mul_le_mul_right (by linarith) hD1
    intro q
    fin_cases q
    · exact b0
    · exact b1
  · obtain ⟨z, hz, z', hz', a, ha, b, hb, hab, h1, h2, h3, h4⟩ := hout
    obtain ⟨i, hi⟩ := (hp (place τ e z + t)).2 ⟨z, hz, rfl⟩
    obtain ⟨j, hj⟩ := (hp (place τ e z' + t)).2 ⟨z', hz', rfl⟩
    simp only [List.mem_cons, List.not_mem_nil, or_false] at ha hb
    have ha' : |a| ≤ 1 := by rw [abs_le]; omega
    have hb' : |b| ≤ 1 := by rw [abs_le]; omega
    refine ⟨![a, b], ⟨fun q => ?_, ?_⟩, i, j, ?_⟩
    · fin_cases q
      · exact ha'
      · exact hb'
    · rcases hab with h | h
      · exact ⟨0, le_antisymm ha' (Int.one_le_abs h)⟩
      · exact ⟨1, le_antisymm hb' (Int.one_le_abs h)⟩
    · rw [hi, hj, hdist]
      simp only [Matrix.cons_val_zero, Matrix.cons_val_one, Matrix.cons_val_fin_one]
      rw [h1, h2, h3, h4]
      exact hδ
  · obtain ⟨z, hz, z', hz', h1, h2, h3, h4⟩ := hin
    obtain ⟨i, hi⟩ := (hp (place τ e z + t)).2 ⟨z, hz, rfl⟩
    obtain ⟨j, hj⟩ := (hp (place τ e z' + t)).2 ⟨z', hz', rfl⟩
    right
    have hdd : ndist (points i) (points j) = d := by
      have := hdist z z' 0
      rw [comb_zero, add_zero] at this
      rw [hi, hj, this, ← hδ, ← h1, ← h2, ← h3, ← h4]
      simp
    refine ⟨i, j, ?_, hdd⟩
    rintro rfl
    rw [ndist_self] at hdd
    exact hc.pos.ne hdd

theorem mk_points_iff {m : ℕ} {l : List (Pt m)} {v : Fin m → Pt m} {count : ℕ} {L : Lat count m m}
    (h : mkLattice prec l v = .ok ⟨count, m, m, L⟩) (p : Pt m) : (∃ i, L.points i = p) ↔ p ∈ l := by
  unfold mkLattice at h
  rcases hi : init prec l.get v with e | L'
  · rw [hi] at h; simp [Except.map] at h
  · rw [hi] at h
    have hB : (⟨l.length, m, m, L'⟩ : Built) = ⟨count, m, m, L⟩ := Except.ok.inj h
    have hc : l.length = count := congrArg Built.n hB
    subst hc
    simp only [Built.mk.injEq, heq_eq_eq, true_and] at hB
    subst hB
    obtain ⟨h1, _⟩ := C46_reciprocal_dual hi
    rw [h1]
    constructor
    · rintro ⟨i, rfl⟩; exact List.get_mem _ _
    · intro hp
      obtain ⟨i, hi⟩ := List.get_of_mem hp
      exact ⟨i, hi⟩

/-- The nearest-neighbour relation of the honeycomb lattice. -/
def honeyNN (s s' : ℕ) (a b : ℤ) : Bool :=
  decide (3 * (a ^ 2 + a * b + b ^ 2) + 3 * (b * ((s : ℤ) - s')) + ((s : ℤ) - s') ^ 2 = 1)

set_option maxRecDepth 100000 in
theorem squareCross_near : NearCheck 12 squareCrossZs (3, -2) (3, 2) (fun _ _ _ _ => true) 0 0 (1, 0) := by
  decide +kernel

set_option maxRecDepth 100000 in
theorem squareZ_near : NearCheck 10 squareZZs (1, -3) (3, 1) (fun _ _ _ _ => true) 0 0 (1, 0) := by
  decide +kernel

set_option maxRecDepth 100000 in
theorem squareS_near : NearCheck 10 squareSZs (3, -1) (1, 3) (fun _ _ _ _ => true) 0 0 (1, 0) := by
  decide +kernel

set_option maxRecDepth 100000 in
theorem triangleStar_near : NearCheck 13 triangleStarZs (3, 1) (-1, 4) (fun _ _ _ _ => true) 0 0 (1, 0) := by
  decide +kernel

set_option maxRecDepth 100000 in
theorem honeycombBenzene_near : NearCheck 3 honeycombBenzeneZs (2, -1) (1, 1) honeyNN 0 1 (0, 0) := by
  decide +kernel

set_option maxRecDepth 100000 in
theorem honeycombDiphenyl_near : NearCheck 5 honeycombDiphenylZs (3, -1) (2, 1) honeyNN 0 1 (0, 0) := by
  decide +kernel

set_option maxRecDepth 100000 in
theorem honeycombGear_near : NearCheck 12 honeycombGearZs (4, -2) (2, 2) honeyNN 0 1 (0, 0) := by
  decide +kernel

theorem honey_getD {s : ℕ} (hs : s < honeycombCell.points.length) :
    honeycombCell.points.getD s 0 = ![0, ((2 * (s : ℤ) - 1 : ℤ) : ℝ) * (r3 / 6)] := by
  have hs' : s < 2 := hs
  interval_cases s
  · refine pt2_ext rfl ?_
    simp only [honeycombCell, List.getD_cons_zero, Matrix.cons_val_one, Matrix.cons_val_fin_one,
      div_eq_mul_inv, inv_r3]
    push_cast; ring
  · refine pt2_ext rfl ?_
    simp only [honeycombCell, List.getD_cons_succ, List.getD_cons_zero, Matrix.cons_val_one,
      Matrix.cons_val_fin_one, div_eq_mul_inv, inv_r3]
    push_cast; ring

theorem honey_nn (s s' : ℕ) (hs : s < honeycombCell.points.length) (hs' : s' < honeycombCell.points.length)
    (a b : ℤ) (h : ndist (honeycombCell.points.getD s 0 + comb honeycombCell.vectors ![a, b])
      (honeycombCell.points.getD s' 0) = 1 / Real.sqrt 3) : honeyNN s s' a b = true := by
  rw [honey_getD hs, honey_getD hs', ndist_eq_iff inv_sqrt3_pos.le,
    honey_key a b _ _ ((s : ℤ) - s') (by ring), inv_sqrt3_sq] at h
  rw [honeyNN, decide_eq_true_iff]
  have : ((3 * (a ^ 2 + a * b + b ^ 2) + 3 * (b * ((s : ℤ) - s')) + ((s : ℤ) - s') ^ 2 : ℤ) : ℝ) = 1 := by
    linarith
  exact_mod_cast this

theorem honey_pair : ndist (honeycombCell.points.getD 0 0 + comb honeycombCell.vectors ![0, 0])
    (honeycombCell.points.getD 1 0) = 1 / Real.sqrt 3 := by
  rw [honey_getD (by simp [honeycombCell]), honey_getD (by simp [honeycombCell]),
    ndist_eq_iff inv_sqrt3_pos.le, honey_key 0 0 _ _ (-1) (by norm_num), inv_sqrt3_sq]
  norm_num

theorem square_pair : ndist (squareCell.points.getD 0 0 + comb squareCell.vectors ![1, 0])
    (squareCell.points.getD 0 0) = 1 := by
  rw [ndist_eq_iff zero_le_one, Fin.sum_univ_two]
  simp [squareCell, comb, Fin.sum_univ_two]

theorem triangle_pair : ndist (triangleCell.points.getD 0 0 + comb triangleCell.vectors ![1, 0])
    (triangleCell.points.getD 0 0) = 1 := by
  rw [ndist_eq_iff zero_le_one, Fin.sum_univ_two]
  simp [triangleCell, comb, Fin.sum_univ_two]

end Verif.LDB
