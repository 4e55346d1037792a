import Verif.Proofs.LatticeCells
/-!
Helper lemmas: the special clusters tile their lattices.  In coordinates of the parent cell the
question is whether every class of integer pairs modulo the translation vectors is hit exactly once; the
classes are the classes modulo the determinant, of which there are finitely many.
-/

set_option linter.unusedTactic false
set_option linter.unreachableTactic false
set_option linter.unusedSimpArgs false
set_option linter.unnecessarySeqFocus false

namespace Verif.LDB

open Verif.Latt

/-- `z` is an integer combination of `w0` and `w1` (which have determinant `D`). -/
def hits (D : ℤ) (w0 w1 z : ℤ × ℤ) : Prop :=
  (z.1 * w1.2 - z.2 * w1.1) % D = 0 ∧ (w0.1 * z.2 - w0.2 * z.1) % D = 0

instance (D : ℤ) (w0 w1 z : ℤ × ℤ) : Decidable (hits D w0 w1 z) := instDecidableAnd

theorem hits_iff {D : ℤ} {w0 w1 : ℤ × ℤ} (hD : w0.1 * w1.2 - w0.2 * w1.1 = D) (hD0 : D ≠ 0)
    (z : ℤ × ℤ) : hits D w0 w1 z ↔
      ∃ c : Fin 2 → ℤ, z.1 = c 0 * w0.1 + c 1 * w1.1 ∧ z.2 = c 0 * w0.2 + c 1 * w1.2 := by
  constructor
  · rintro ⟨h1, h2⟩
    obtain ⟨c0, h1⟩ := Int.dvd_of_emod_eq_zero h1
    obtain ⟨c1, h2⟩ := Int.dvd_of_emod_eq_zero h2
    refine ⟨![c0, c1], mul_left_cancel₀ hD0 ?_, mul_left_cancel₀ hD0 ?_⟩
    · simp only [Matrix.cons_val_zero, Matrix.cons_val_one]
      linear_combination (-z.1) * hD + w0.1 * h1 + w1.1 * h2
    · simp only [Matrix.cons_val_zero, Matrix.cons_val_one]
      linear_combination (-z.2) * hD + w0.2 * h1 + w1.2 * h2
  · rintro ⟨c, h1, h2⟩
    refine ⟨Int.emod_eq_zero_of_dvd ⟨c 0, ?_⟩, Int.emod_eq_zero_of_dvd ⟨c 1, ?_⟩⟩
    · rw [h1, h2, ← hD]; ring
    · rw [h1, h2, ← hD]; ring

theorem hits_mod {D : ℤ} (w0 w1 : ℤ × ℤ) (x y x' y' : ℤ) :
    hits D w0 w1 (x % D - x', y % D - y') ↔ hits D w0 w1 (x - x', y - y') := by
  have e1 : x % D = x - D * (x / D) := by rw [Int.emod_def]
  have e2 : y % D = y - D * (y / D) := by rw [Int.emod_def]
  unfold hits
  dsimp only
  rw [e1, e2]
  have a1 : (x - D * (x / D) - x') * w1.2 - (y - D * (y / D) - y') * w1.1 =
      ((x - x') * w1.2 - (y - y') * w1.1) + D * ((y / D) * w1.1 - (x / D) * w1.2) := by ring
  have a2 : w0.1 * (y - D * (y / D) - y') - w0.2 * (x - D * (x / D) - x') =
      (w0.1 * (y - y') - w0.2 * (x - x')) + D * ((x / D) * w0.2 - (y / D) * w0.1) := by ring
  rw [a1, a2, Int.add_mul_emod_self_left, Int.add_mul_emod_self_left]

/-- The finite question: `zs` lists coordinates and sublattices of the cluster points. -/
def Check (D : ℕ) (ns : ℕ) (zs : List (ℤ × ℤ × ℕ)) (w0 w1 : ℤ × ℤ) : Prop :=
  zs.Nodup ∧ (∀ q ∈ zs, q.2.2 < ns) ∧
  ∀ x ∈ List.range D, ∀ y ∈ List.range D, ∀ s ∈ List.range ns, ∃ q ∈ zs, (q.2.2 = s ∧ hits D w0 w1 ((x : ℤ) - q.1, (y : ℤ) - q.2.1)) ∧
    ∀ q' ∈ zs, q'.2.2 = s → hits D w0 w1 ((x : ℤ) - q'.1, (y : ℤ) - q'.2.1) → q' = q

instance (D ns : ℕ) (zs : List (ℤ × ℤ × ℕ)) (w0 w1 : ℤ × ℤ) : Decidable (Check D ns zs w0 w1) := by
  unfold Check; infer_instance

/-- The point with coordinates `q.1, q.2.1` on the sublattice `q.2.2`. -/
def place (τ : List (Pt 2)) (e : Fin 2 → Pt 2) (q : ℤ × ℤ × ℕ) : Pt 2 :=
  τ.getD q.2.2 0 + comb e ![q.1, q.2.1]

theorem tiling_of_check {S : Set (Pt 2)} {τ : List (Pt 2)} {e : Fin 2 → Pt 2} (h : LTiling S τ e)
    {D : ℕ} {zs : List (ℤ × ℤ × ℕ)} {w0 w1 : ℤ × ℤ} (hD : w0.1 * w1.2 - w0.2 * w1.1 = (D : ℤ))
    (hD0 : D ≠ 0) (hc : Check D τ.length zs w0 w1) :
    LTiling S (zs.map (place τ e)) ![comb e ![w0.1, w0.2], comb e ![w1.1, w1.2]] := by
  obtain ⟨hnd, hsub, hchk⟩ := hc
  have hD0' : (D : ℤ) ≠ 0 := by exact_mod_cast hD0
  have hD1 : (0 : ℤ) < D := by omega
  have hcomb : ∀ c : Fin 2 → ℤ, comb ![comb e ![w0.1, w0.2], comb e ![w1.1, w1.2]] c =
      comb e ![c 0 * w0.1 + c 1 * w1.1, c 0 * w0.2 + c 1 * w1.2] := by
    intro c
    funext a
    rw [comb_two', comb_two']
    simp only [Matrix.cons_val_zero, Matrix.cons_val_one]
    rw [comb_two', comb_two']
    simp only [Matrix.cons_val_zero, Matrix.cons_val_one]
    push_cast; ring
  have hτ : ∀ s (hs : s < τ.length), τ.getD s 0 = τ[s] := fun s hs => by rw [List.getD_eq_getElem?_getD, List.getElem?_eq_getElem hs, Option.getD_some]
  have hmem : ∀ s, s < τ.length → τ.getD s 0 ∈ τ := fun s hs => by
    rw [hτ s hs]; exact List.getElem_mem hs
  have hτinj : ∀ s s', s < τ.length → s' < τ.length → τ.getD s 0 = τ.getD s' 0 → s = s' := by
    intro s s' hs hs' he
    rw [hτ s hs, hτ s' hs'] at he
    exact (List.Nodup.getElem_inj_iff h.nodup).1 he
  have hpl : ∀ (q : ℤ × ℤ × ℕ) (c : Fin 2 → ℤ), place τ e q + comb e c =
      τ.getD q.2.2 0 + comb e (![q.1, q.2.1] + c) := by
    intro q c; rw [comb_add, place]; abel
  have key : ∀ q ∈ zs, ∀ q' ∈ zs, ∀ c c' : Fin 2 → ℤ,
      place τ e q + comb ![comb e ![w0.1, w0.2], comb e ![w1.1, w1.2]] c =
      place τ e q' + comb ![comb e ![w0.1, w0.2], comb e ![w1.1, w1.2]] c' → q' = q ∧ c' = c := by
    intro q hq q' hq' c c' he
    rw [hcomb, hcomb, hpl, hpl] at he
    have h1 := h.uniq _ (hmem _ (hsub q hq)) _ (hmem _ (hsub q' hq')) _ _ he
    have hs := hτinj _ _ (hsub q' hq') (hsub q hq) h1.1
    have g0 := congrFun h1.2 0
    have g1 := congrFun h1.2 1
    simp only [Pi.add_apply, Matrix.cons_val_zero, Matrix.cons_val_one] at g0 g1
    -- both hit the class of `q`
    have hx : ((q.1 % (D : ℤ)).toNat : ℤ) = q.1 % D := Int.toNat_of_nonneg (Int.emod_nonneg _ hD0')
    have hy : ((q.2.1 % (D : ℤ)).toNat : ℤ) = q.2.1 % D := Int.toNat_of_nonneg (Int.emod_nonneg _ hD0')
    obtain ⟨r, hr, ⟨hrs, hrh⟩, hru⟩ := hchk (q.1 % D).toNat
      (List.mem_range.2 (by have := Int.emod_lt_of_pos q.1 hD1; omega)) (q.2.1 % D).toNat
      (List.mem_range.2 (by have := Int.emod_lt_of_pos q.2.1 hD1; omega)) q.2.2 (List.mem_range.2 (hsub q hq))
    have a1 : q = r := hru q hq rfl (by
      rw [hx, hy, hits_mod, hits_iff hD hD0']
      exact ⟨0, by simp, by simp⟩)
    have a2 : q' = r := hru q' hq' hs (by
      rw [hx, hy, hits_mod, hits_iff hD hD0']
      refine ⟨fun i => c' i - c i, ?_, ?_⟩
      · dsimp only; linear_combination -g0
      · dsimp only; linear_combination -g1)
    have a3 : q' = q := a2.trans a1.symm
    rw [a3] at g0 g1
    refine ⟨a3, int2_ext (mul_left_cancel₀ hD0' ?_) (mul_left_cancel₀ hD0' ?_)⟩
    · rw [← hD]; linear_combination w1.2 * g0 - w1.1 * g1
    · rw [← hD]; linear_combination w0.1 * g1 - w0.2 * g0
  refine ⟨?_, ?_, ?_, ?_⟩
  · intro p hp c
    obtain ⟨q, hq, rfl⟩ := List.mem_map.1 hp
    rw [hcomb, hpl]
    exact h.inside _ (hmem _ (hsub q hq)) _
  · refine hnd.map_on fun q hq q' hq' he => ?_
    exact (key q hq q' hq' 0 0 (by rw [he])).1.symm
  · intro s hs
    obtain ⟨t, ht, a, rfl⟩ := h.ex s hs
    obtain ⟨j, hj, rfl⟩ := List.getElem_of_mem ht
    have hx : ((a 0 % (D : ℤ)).toNat : ℤ) = a 0 % D := Int.toNat_of_nonneg (Int.emod_nonneg _ hD0')
    have hy : ((a 1 % (D : ℤ)).toNat : ℤ) = a 1 % D := Int.toNat_of_nonneg (Int.emod_nonneg _ hD0')
    obtain ⟨r, hr, ⟨hrs, hrh⟩, -⟩ := hchk (a 0 % D).toNat
      (List.mem_range.2 (by have := Int.emod_lt_of_pos (a 0) hD1; omega)) (a 1 % D).toNat
      (List.mem_range.2 (by have := Int.emod_lt_of_pos (a 1) hD1; omega)) j (List.mem_range.2 hj)
    rw [hx, hy, hits_mod, hits_iff hD hD0'] at hrh
    obtain ⟨c, h0, h1⟩ := hrh
    refine ⟨_, List.mem_map.2 ⟨r, hr, rfl⟩, c, ?_⟩
    rw [hcomb, hpl, hrs, hτ j hj]
    congr 2
    refine int2_ext ?_ ?_
    · simp only [Pi.add_apply, Matrix.cons_val_zero, Matrix.cons_val_one]
      linear_combination h0
    · simp only [Pi.add_apply, Matrix.cons_val_zero, Matrix.cons_val_one]
      linear_combination h1
  · intro p hp p' hp' c c' he
    obtain ⟨q, hq, rfl⟩ := List.mem_map.1 hp
    obtain ⟨q', hq', rfl⟩ := List.mem_map.1 hp'
    obtain ⟨h1, h2⟩ := key q hq q' hq' c c' he
    exact ⟨by rw [h1], h2⟩

theorem sqBasis_0 (c : Fin 2 → ℤ) : comb squareCell.vectors c 0 = (c 0 : ℝ) := by
  rw [comb_two']; simp [squareCell]
theorem sqBasis_1 (c : Fin 2 → ℤ) : comb squareCell.vectors c 1 = (c 1 : ℝ) := by
  rw [comb_two']; simp [squareCell]

theorem place_square (x y : ℤ) (s : ℕ) (hs : s = 0) :
    place squareCell.points squareCell.vectors (x, y, s) = ![(x : ℝ), (y : ℝ)] := by
  subst hs
  refine pt2_ext ?_ ?_
  · rw [place, Pi.add_apply, sqBasis_0]; simp [squareCell]
  · rw [place, Pi.add_apply, sqBasis_1]; simp [squareCell]

theorem place_triangle (x y : ℤ) (s : ℕ) (hs : s = 0) :
    place triangleCell.points triangleCell.vectors (x, y, s) = ![(x : ℝ) + y / 2, y * (r3 / 2)] := by
  subst hs
  refine pt2_ext ?_ ?_
  · rw [place, Pi.add_apply, triBasis_0]; simp [triangleCell]
  · rw [place, Pi.add_apply, triBasis_1]; simp [triangleCell]

theorem place_honeycomb (x y : ℤ) (s : ℕ) (hs : s < 2) :
    place honeycombCell.points triangleCell.vectors (x, y, s) =
      ![(x : ℝ) + y / 2, (y : ℝ) * (r3 / 2) + (2 * s - 1) * (r3 / 6)] := by
  refine pt2_ext ?_ ?_
  · rw [place, Pi.add_apply, triBasis_0]
    interval_cases s <;> simp [honeycombCell]
  · rw [place, Pi.add_apply, triBasis_1]
    interval_cases s
    · simp [honeycombCell, div_eq_mul_inv, inv_r3]; ring
    · simp [honeycombCell, div_eq_mul_inv, inv_r3]; ring

theorem comb_tri (x y : ℤ) : comb triangleCell.vectors ![x, y] = ![(x : ℝ) + y / 2, y * (r3 / 2)] := by
  refine pt2_ext ?_ ?_
  · rw [triBasis_0]; simp
  · rw [triBasis_1]; simp
theorem comb_sq (x y : ℤ) : comb squareCell.vectors ![x, y] = ![(x : ℝ), (y : ℝ)] := by
  refine pt2_ext ?_ ?_
  · rw [sqBasis_0]; simp
  · rw [sqBasis_1]; simp

/-- Coordinates of the points of `squareCross` in the parent cell. -/
def squareCrossZs : List (ℤ × ℤ × ℕ) :=
  [(-1, -1, 0), (-1, 0, 0), (0, 0, 0), (0, -1, 0), (-1, -2, 0), (-2, -1, 0), (-2, 0, 0), (-1, 1, 0), (0, 1, 0), (1, 0, 0), (1, -1, 0), (0, -2, 0)]

set_option maxRecDepth 100000 in
theorem squareCross_check : Check 12 1 squareCrossZs (3, -2) (3, 2) := by decide +kernel

theorem squareCross_vectors : squareCross.vectors = ![comb squareCell.vectors ![3, -2], comb squareCell.vectors ![3, 2]] := by
  rw [comb_sq, comb_sq]
  change ![_, _] = ![_, _]
  refine congrArg₂ (fun a b : Pt 2 => ![a, b]) ?_ ?_
  · refine pt2_ext ?_ ?_ <;> norm_num <;> ring
  · refine pt2_ext ?_ ?_ <;> norm_num <;> ring

theorem squareCross_points : squareCross.points = (squareCrossZs.map (place squareCell.points squareCell.vectors)).map (· + ![1 / 2, 1 / 2]) := by
  simp only [squareCrossZs, List.map_cons, List.map_nil]
  repeat rw [place_square _ _ _ (by norm_num)]
  simp only [squareCross, div_eq_mul_inv, inv_r3]
  repeat' (first | rfl | refine congrArg₂ List.cons (pt2_ext ?_ ?_) ?_)
  all_goals norm_num
  all_goals ring

theorem tiling_squareCross : LTiling (shifted ![1 / 2, 1 / 2] squareSites) squareCross.points squareCross.vectors := by
  have h := (tiling_of_check (D := 12) tiling_square (by norm_num) (by norm_num) squareCross_check).shift ![1 / 2, 1 / 2]
  rw [squareCross_points, squareCross_vectors]
  exact h

/-- Coordinates of the points of `squareZ` in the parent cell. -/
def squareZZs : List (ℤ × ℤ × ℕ) :=
  [(-2, 1, 0), (-1, 1, 0), (0, 1, 0), (-2, 0, 0), (-1, 0, 0), (0, 0, 0), (1, 0, 0), (-1, -1, 0), (0, -1, 0), (1, -1, 0)]

set_option maxRecDepth 100000 in
theorem squareZ_check : Check 10 1 squareZZs (1, -3) (3, 1) := by decide +kernel

theorem squareZ_vectors : squareZ.vectors = ![comb squareCell.vectors ![1, -3], comb squareCell.vectors ![3, 1]] := by
  rw [comb_sq, comb_sq]
  change ![_, _] = ![_, _]
  refine congrArg₂ (fun a b : Pt 2 => ![a, b]) ?_ ?_
  · refine pt2_ext ?_ ?_ <;> norm_num <;> ring
  · refine pt2_ext ?_ ?_ <;> norm_num <;> ring

theorem squareZ_points : squareZ.points = (squareZZs.map (place squareCell.points squareCell.vectors)).map (· + ![1 / 2, 0]) := by
  simp only [squareZZs, List.map_cons, List.map_nil]
  repeat rw [place_square _ _ _ (by norm_num)]
  simp only [squareZ, div_eq_mul_inv, inv_r3]
  repeat' (first | rfl | refine congrArg₂ List.cons (pt2_ext ?_ ?_) ?_)
  all_goals norm_num
  all_goals ring

theorem tiling_squareZ : LTiling (shifted ![1 / 2, 0] squareSites) squareZ.points squareZ.vectors := by
  have h := (tiling_of_check (D := 10) tiling_square (by norm_num) (by norm_num) squareZ_check).shift ![1 / 2, 0]
  rw [squareZ_points, squareZ_vectors]
  exact h

/-- Coordinates of the points of `squareS` in the parent cell. -/
def squareSZs : List (ℤ × ℤ × ℕ) :=
  [(-1, 1, 0), (0, 1, 0), (1, 1, 0), (-2, 0, 0), (-1, 0, 0), (0, 0, 0), (1, 0, 0), (-2, -1, 0), (-1, -1, 0), (0, -1, 0)]

set_option maxRecDepth 100000 in
theorem squareS_check : Check 10 1 squareSZs (3, -1) (1, 3) := by decide +kernel

theorem squareS_vectors : squareS.vectors = ![comb squareCell.vectors ![3, -1], comb squareCell.vectors ![1, 3]] := by
  rw [comb_sq, comb_sq]
  change ![_, _] = ![_, _]
  refine congrArg₂ (fun a b : Pt 2 => ![a, b]) ?_ ?_
  · refine pt2_ext ?_ ?_ <;> norm_num <;> ring
  · refine pt2_ext ?_ ?_ <;> norm_num <;> ring

theorem squareS_points : squareS.points = (squareSZs.map (place squareCell.points squareCell.vectors)).map (· + ![1 / 2, 0]) := by
  simp only [squareSZs, List.map_cons, List.map_nil]
  repeat rw [place_square _ _ _ (by norm_num)]
  simp only [squareS, div_eq_mul_inv, inv_r3]
  repeat' (first | rfl | refine congrArg₂ List.cons (pt2_ext ?_ ?_) ?_)
  all_goals norm_num
  all_goals ring

theorem tiling_squareS : LTiling (shifted ![1 / 2, 0] squareSites) squareS.points squareS.vectors := by
  have h := (tiling_of_check (D := 10) tiling_square (by norm_num) (by norm_num) squareS_check).shift ![1 / 2, 0]
  rw [squareS_points, squareS_vectors]
  exact h

/-- Coordinates of the points of `triangleStar` in the parent cell. -/
def triangleStarZs : List (ℤ × ℤ × ℕ) :=
  [(0, 0, 0), (0, -1, 0), (-1, 0, 0), (-1, 1, 0), (0, 1, 0), (1, 0, 0), (1, -1, 0), (1, -2, 0), (-1, -1, 0), (-2, 1, 0), (-1, 2, 0), (1, 1, 0), (2, -1, 0)]

set_option maxRecDepth 100000 in
theorem triangleStar_check : Check 13 1 triangleStarZs (3, 1) (-1, 4) := by decide +kernel

theorem triangleStar_vectors : triangleStar.vectors = ![comb triangleCell.vectors ![3, 1], comb triangleCell.vectors ![-1, 4]] := by
  rw [comb_tri, comb_tri]
  change ![_, _] = ![_, _]
  refine congrArg₂ (fun a b : Pt 2 => ![a, b]) ?_ ?_
  · refine pt2_ext ?_ ?_ <;> norm_num <;> ring
  · refine pt2_ext ?_ ?_ <;> norm_num <;> ring

theorem triangleStar_points : triangleStar.points = (triangleStarZs.map (place triangleCell.points triangleCell.vectors)).map (· + ![0, 0]) := by
  simp only [triangleStarZs, List.map_cons, List.map_nil]
  repeat rw [place_triangle _ _ _ (by norm_num)]
  simp only [triangleStar, div_eq_mul_inv, inv_r3]
  repeat' (first | rfl | refine congrArg₂ List.cons (pt2_ext ?_ ?_) ?_)
  all_goals norm_num
  all_goals ring

theorem tiling_triangleStar : LTiling (shifted ![0, 0] triangleSites) triangleStar.points triangleStar.vectors := by
  have h := (tiling_of_check (D := 13) tiling_triangle (by norm_num) (by norm_num) triangleStar_check).shift ![0, 0]
  rw [triangleStar_points, triangleStar_vectors]
  exact h

/-- Coordinates of the points of `honeycombBenzene` in the parent cell. -/
def honeycombBenzeneZs : List (ℤ × ℤ × ℕ) :=
  [(0, -1, 1), (-1, 0, 0), (-1, 0, 1), (-1, 1, 0), (0, 0, 1), (0, 0, 0)]

set_option maxRecDepth 100000 in
theorem honeycombBenzene_check : Check 3 2 honeycombBenzeneZs (2, -1) (1, 1) := by decide +kernel

theorem honeycombBenzene_vectors : honeycombBenzene.vectors = ![comb triangleCell.vectors ![2, -1], comb triangleCell.vectors ![1, 1]] := by
  rw [comb_tri, comb_tri]
  change ![_, _] = ![_, _]
  refine congrArg₂ (fun a b : Pt 2 => ![a, b]) ?_ ?_
  · refine pt2_ext ?_ ?_ <;> norm_num <;> ring
  · refine pt2_ext ?_ ?_ <;> norm_num <;> ring

theorem honeycombBenzene_points : honeycombBenzene.points = (honeycombBenzeneZs.map (place honeycombCell.points triangleCell.vectors)).map (· + ![1 / 2, 0]) := by
  simp only [honeycombBenzeneZs, List.map_cons, List.map_nil]
  repeat rw [place_honeycomb _ _ _ (by norm_num)]
  simp only [honeycombBenzene, div_eq_mul_inv, inv_r3]
  repeat' (first | rfl | refine congrArg₂ List.cons (pt2_ext ?_ ?_) ?_)
  all_goals norm_num
  all_goals ring

theorem tiling_honeycombBenzene : LTiling (shifted ![1 / 2, 0] honeycombSites) honeycombBenzene.points honeycombBenzene.vectors := by
  have h := (tiling_of_check (D := 3) tiling_honeycomb (by norm_num) (by norm_num) honeycombBenzene_check).shift ![1 / 2, 0]
  rw [honeycombBenzene_points, honeycombBenzene_vectors]
  exact h

/-- Coordinates of the points of `honeycombDiphenyl` in the parent cell. -/
def honeycombDiphenylZs : List (ℤ × ℤ × ℕ) :=
  [(0, -1, 1), (-1, 0, 0), (-1, 0, 1), (-1, 1, 0), (0, 0, 1), (0, 1, 0), (1, 0, 1), (1, 0, 0), (1, -1, 1), (0, 0, 0)]

set_option maxRecDepth 100000 in
theorem honeycombDiphenyl_check : Check 5 2 honeycombDiphenylZs (3, -1) (2, 1) := by decide +kernel

theorem honeycombDiphenyl_vectors : honeycombDiphenyl.vectors = ![comb triangleCell.vectors ![3, -1], comb triangleCell.vectors ![2, 1]] := by
  rw [comb_tri, comb_tri]
  change ![_, _] = ![_, _]
  refine congrArg₂ (fun a b : Pt 2 => ![a, b]) ?_ ?_
  · refine pt2_ext ?_ ?_ <;> norm_num <;> ring
  · refine pt2_ext ?_ ?_ <;> norm_num <;> ring

theorem honeycombDiphenyl_points : honeycombDiphenyl.points = (honeycombDiphenylZs.map (place honeycombCell.points triangleCell.vectors)).map (· + ![0, 0]) := by
  simp only [honeycombDiphenylZs, List.map_cons, List.map_nil]
  repeat rw [place_honeycomb _ _ _ (by norm_num)]
  simp only [honeycombDiphenyl, div_eq_mul_inv, inv_r3]
  repeat' (first | rfl | refine congrArg₂ List.cons (pt2_ext ?_ ?_) ?_)
  all_goals norm_num
  all_goals ring

theorem tiling_honeycombDiphenyl : LTiling (shifted ![0, 0] honeycombSites) honeycombDiphenyl.points honeycombDiphenyl.vectors := by
  have h := (tiling_of_check (D := 5) tiling_honeycomb (by norm_num) (by norm_num) honeycombDiphenyl_check).shift ![0, 0]
  rw [honeycombDiphenyl_points, honeycombDiphenyl_vectors]
  exact h

/-- Coordinates of the points of `honeycombGear` in the parent cell. -/
def honeycombGearZs : List (ℤ × ℤ × ℕ) :=
  [(0, -1, 1), (-1, 0, 0), (-1, 0, 1), (-1, 1, 0), (0, 0, 1), (0, 0, 0), (0, -1, 0), (0, -2, 1), (-1, -1, 0), (-1, -1, 1), (-2, 0, 0), (-2, 0, 1), (-2, 1, 0), (-2, 1, 1), (-2, 2, 0), (-1, 1, 1), (-1, 2, 0), (0, 1, 1), (0, 1, 0), (1, 0, 1), (1, 0, 0), (1, -1, 1), (1, -1, 0), (1, -2, 1)]

set_option maxRecDepth 100000 in
theorem honeycombGear_check : Check 12 2 honeycombGearZs (4, -2) (2, 2) := by decide +kernel

theorem honeycombGear_vectors : honeycombGear.vectors = ![comb triangleCell.vectors ![4, -2], comb triangleCell.vectors ![2, 2]] := by
  rw [comb_tri, comb_tri]
  change ![_, _] = ![_, _]
  refine congrArg₂ (fun a b : Pt 2 => ![a, b]) ?_ ?_
  · refine pt2_ext ?_ ?_ <;> norm_num <;> ring
  · refine pt2_ext ?_ ?_ <;> norm_num <;> ring

theorem honeycombGear_points : honeycombGear.points = (honeycombGearZs.map (place honeycombCell.points triangleCell.vectors)).map (· + ![1 / 2, 0]) := by
  simp only [honeycombGearZs, List.map_cons, List.map_nil]
  repeat rw [place_honeycomb _ _ _ (by norm_num)]
  simp only [honeycombGear, div_eq_mul_inv, inv_r3]
  repeat' (first | rfl | refine congrArg₂ List.cons (pt2_ext ?_ ?_) ?_)
  all_goals norm_num
  all_goals ring

theorem tiling_honeycombGear : LTiling (shifted ![1 / 2, 0] honeycombSites) honeycombGear.points honeycombGear.vectors := by
  have h := (tiling_of_check (D := 12) tiling_honeycomb (by norm_num) (by norm_num) honeycombGear_check).shift ![1 / 2, 0]
  rw [honeycombGear_points, honeycombGear_vectors]
  exact h

end Verif.LDB
