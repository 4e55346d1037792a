import Verif.Model.Draw2DLattice
import Verif.Spec.Draw2DLattice
import Verif.Proofs.LatticeCells
import Verif.Proofs.LatticeDistances
import Verif.Proofs.KPath
import Verif.Props.LatticeBonds
/-!
Helper lemmas for the drawn lattices.
-/

namespace Verif.D2L

open Verif.Latt Verif.LDB

/-- The table entry of a kind. -/
noncomputable def infoOf : Kind → Info 2
  | .square => squareInfo
  | .triangle => triangleInfo
  | .honeycomb => honeycombInfo
  | .kagome => kagomeInfo

theorem cellInfo_named {which : String} {k : Kind} (h : Named which k) :
    cellInfo which = some (infoOf k) := by
  cases k <;> rcases h with rfl | rfl <;> simp [cellInfo, infoOf]

theorem cellInfo_none {which : String} (h : ∀ k, ¬ Named which k) : cellInfo which = none := by
  have h1 := h .square
  have h2 := h .triangle
  have h3 := h .honeycomb
  have h4 := h .kagome
  simp only [Named, not_or] at h1 h2 h3 h4
  simp [cellInfo, h1, h2, h3, h4]

theorem mem_cells {n0 n1 : ℤ} {c : Fin 2 → ℤ} : c ∈ cells n0 n1 ↔ InBox n0 n1 (c 0) (c 1) := by
  simp only [cells, List.mem_flatMap, List.mem_map, mem_pyRange, InBox, abs_le]
  constructor
  · rintro ⟨a, ha, b, hb, rfl⟩
    simp only [Matrix.cons_val_zero, Matrix.cons_val_one]
    omega
  · rintro ⟨h0, h1⟩
    exact ⟨c 0, by omega, c 1, by omega, int2_ext rfl rfl⟩

theorem nodup_cells (n0 n1 : ℤ) : (cells n0 n1).Nodup := by
  unfold cells
  rw [List.nodup_flatMap]
  refine ⟨fun a _ => (nodup_pyRange _ _).map ?_, ?_⟩
  · intro b b' h
    have := congrFun h 1
    simpa using this
  · refine (nodup_pyRange _ _).imp ?_
    intro a b hab x hx hy
    simp only [List.mem_map] at hx hy
    obtain ⟨c, _, rfl⟩ := hx
    obtain ⟨d, _, hd⟩ := hy
    have := congrFun hd 0
    simp at this; exact hab this.symm

theorem length_pyRange (a b : ℤ) : (pyRange a b).length = (b - a).toNat := by simp [pyRange]

theorem length_flatMap_const {α β : Type} (l : List α) (f : α → List β) (n : ℕ)
    (h : ∀ a ∈ l, (f a).length = n) : (l.flatMap f).length = l.length * n := by
  induction l with
  | nil => simp
  | cons a l ih =>
    rw [List.flatMap_cons, List.length_append, ih fun b hb => h b (List.mem_cons_of_mem _ hb),
      h a List.mem_cons_self, List.length_cons]
    ring

theorem length_cells (n0 n1 : ℤ) :
    (cells n0 n1).length = (2 * n0 + 1).toNat * (2 * n1 + 1).toNat := by
  unfold cells
  rw [length_flatMap_const _ _ (2 * n1 + 1).toNat, length_pyRange]
  · congr 2; ring
  · intro a _
    rw [List.length_map, length_pyRange]
    congr 1; ring

theorem cells_isEmpty_iff (n0 n1 : ℤ) : (cells n0 n1).isEmpty = true ↔ n0 < 0 ∨ n1 < 0 := by
  rw [List.isEmpty_iff_length_eq_zero, length_cells, Nat.mul_eq_zero]
  omega

theorem length_points (k : Kind) : (infoOf k).points.length = perCell k := by
  cases k <;> rfl

theorem comb_tri (c : Fin 2 → ℤ) : comb triangleInfo.vectors c = tri (c 0) (c 1) := by
  have hv : triangleInfo.vectors = triangleCell.vectors := rfl
  refine pt2_ext ?_ ?_
  · rw [hv, triBasis_0]; simp [tri]
  · rw [hv, triBasis_1]; simp [tri, r3]

theorem comb_sq (c : Fin 2 → ℤ) : comb squareInfo.vectors c = sq (c 0) (c 1) := by
  refine pt2_ext ?_ ?_ <;> simp [comb_two', squareInfo, sq]

/-- The sites of one cell, as drawn. -/
theorem mem_cell (k : Kind) (c : Fin 2 → ℤ) (s : Pt 2) :
    s ∈ (infoOf k).points.map (fun p => comb (infoOf k).vectors c + p) ↔
      s ∈ cellSites k (c 0) (c 1) := by
  have z : (![0, 0] : Pt 2) = 0 := pt2_ext rfl rfl
  cases k with
  | square =>
    simp only [infoOf, cellSites]
    rw [comb_sq]
    simp [squareInfo, z]
  | triangle =>
    simp only [infoOf, cellSites]
    rw [comb_tri]
    simp [triangleInfo, z]
  | honeycomb =>
    simp only [infoOf, cellSites]
    rw [show honeycombInfo.vectors = triangleInfo.vectors from rfl, comb_tri]
    simp only [honeycombInfo, z, r3, List.map_cons, List.map_nil, List.mem_cons, List.not_mem_nil,
      or_false, add_zero, Set.mem_insert_iff, Set.mem_singleton_iff]
  | kagome =>
    simp only [infoOf, cellSites]
    rw [show kagomeInfo.vectors = triangleInfo.vectors from rfl, comb_tri]
    simp only [kagomeInfo, z, r3, List.map_cons, List.map_nil, List.mem_cons, List.not_mem_nil,
      or_false, add_zero, Set.mem_insert_iff, Set.mem_singleton_iff]

/-- The drawn list. -/
noncomputable def drawn (k : Kind) (n0 n1 : ℤ) : List (Pt 2) :=
  (cells n0 n1).flatMap fun c => (infoOf k).points.map fun p => comb (infoOf k).vectors c + p

theorem sitesFactory_ok {which : String} {k : Kind} (h : Named which k) {n0 n1 : ℤ} (h0 : 0 ≤ n0)
    (h1 : 0 ≤ n1) : sitesFactory which n0 n1 = .ok (drawn k n0 n1) := by
  unfold sitesFactory
  rw [cellInfo_named h]
  have : ¬ (cells n0 n1).isEmpty = true := by rw [cells_isEmpty_iff]; omega
  simp only [this]
  rfl

theorem mem_drawn (k : Kind) (n0 n1 : ℤ) (s : Pt 2) : s ∈ drawn k n0 n1 ↔ s ∈ block k n0 n1 := by
  simp only [drawn, List.mem_flatMap, mem_cell, mem_cells, block, Set.mem_ofPred_eq]
  constructor
  · rintro ⟨c, hc, hs⟩; exact ⟨_, _, hc, hs⟩
  · rintro ⟨a, b, hc, hs⟩; exact ⟨![a, b], hc, hs⟩

theorem length_drawn (k : Kind) (n0 n1 : ℤ) :
    (drawn k n0 n1).length = (2 * n0 + 1).toNat * (2 * n1 + 1).toNat * perCell k := by
  unfold drawn
  rw [length_flatMap_const _ _ (perCell k), length_cells]
  intro c _
  rw [List.length_map, length_points]

/-- Cell and position in the cell are determined by the site. -/
theorem uniq (k : Kind) : ∀ p ∈ (infoOf k).points, ∀ p' ∈ (infoOf k).points, ∀ c c',
    p + comb (infoOf k).vectors c = p' + comb (infoOf k).vectors c' → p' = p ∧ c' = c := by
  cases k with
  | square => exact tiling_square.uniq
  | triangle => exact tiling_triangle.uniq
  | kagome => exact tiling_kagome.uniq
  | honeycomb =>
    have hr := r3_pos.ne'
    have hmem : ∀ p, p ∈ honeycombInfo.points → p + ![0, -(1 / 2) / r3] ∈ honeycombCell.points := by
      intro p hp
      simp only [honeycombInfo, List.mem_cons, List.not_mem_nil, or_false] at hp
      simp only [honeycombCell, List.mem_cons, List.not_mem_nil, or_false]
      rcases hp with rfl | rfl
      · left; refine pt2_ext ?_ ?_ <;> simp
      · right; refine pt2_ext ?_ ?_
        · simp
        · simp; ring
    intro p hp p' hp' c c' he
    obtain ⟨g1, g2⟩ := tiling_honeycomb.uniq _ (hmem p hp) _ (hmem p' hp') c c' (by
      change p + _ + comb honeycombInfo.vectors c = p' + _ + comb honeycombInfo.vectors c'
      rw [add_right_comm, add_right_comm p']
      exact congrArg (· + _) he)
    exact ⟨add_right_cancel g1, g2⟩

theorem nodup_points (k : Kind) : (infoOf k).points.Nodup := by
  cases k with
  | square => exact tiling_square.nodup
  | triangle => exact tiling_triangle.nodup
  | kagome => exact tiling_kagome.nodup
  | honeycomb =>
    have hr := r3_pos
    refine List.nodup_cons.2 ⟨?_, List.nodup_singleton _⟩
    rw [List.mem_singleton]
    intro h
    have := congrFun h 1
    simp at this
    exact hr.ne this

theorem nodup_drawn (k : Kind) (n0 n1 : ℤ) : (drawn k n0 n1).Nodup := by
  unfold drawn
  rw [List.nodup_flatMap]
  refine ⟨fun c _ => (nodup_points k).map fun p q h => add_left_cancel h, ?_⟩
  refine (nodup_cells n0 n1).imp ?_
  intro c d hcd x hx hy
  simp only [List.mem_map] at hx hy
  obtain ⟨p, hp, rfl⟩ := hx
  obtain ⟨q, hq, he⟩ := hy
  have := uniq k p hp q hq c d (by rw [add_comm p, add_comm q]; exact he.symm)
  exact hcd this.2.symm

/-! ### Distances -/

/-- Squared distances are integer multiples of `1 / denom`. -/
def denom : Kind → ℕ
  | .square => 1
  | .triangle => 1
  | .honeycomb => 3
  | .kagome => 4

theorem denom_pos (k : Kind) : 0 < (denom k : ℝ) := by cases k <;> simp [denom]
theorem denom_le (k : Kind) : (denom k : ℝ) ≤ 4 := by cases k <;> norm_num [denom]
theorem one_le_denom (k : Kind) : 1 ≤ (denom k : ℝ) := by cases k <;> norm_num [denom]

/-- The nearest-neighbour distance. -/
noncomputable def nn (k : Kind) : ℝ := Real.sqrt (1 / denom k)

theorem s3 : Real.sqrt 3 * Real.sqrt 3 = 3 := r3_sq

theorem inv_s3 : 1 / Real.sqrt 3 = Real.sqrt 3 / 3 := by rw [one_div]; exact inv_r3

/-- sites of the honeycomb lattice in coordinates -/
theorem honeycomb_coord {s : Pt 2} (h : s ∈ whole .honeycomb) : ∃ a b e : ℤ,
    s = ![(a : ℝ) + b / 2, (b / 2 + e / 3) * Real.sqrt 3] := by
  obtain ⟨a, b, h⟩ := h
  simp only [cellSites, Set.mem_insert_iff, Set.mem_singleton_iff] at h
  rcases h with rfl | rfl
  · refine ⟨a, b, 0, pt2_ext ?_ ?_⟩ <;> simp [tri]; ring
  · refine ⟨a, b, 1, pt2_ext ?_ ?_⟩
    · simp [tri]
    · have := inv_s3
      simp [tri] at this ⊢
      rw [this]; ring

theorem kagome_coord {s : Pt 2} (h : s ∈ whole .kagome) : ∃ a b g w : ℤ,
    s = ![(a : ℝ) + b / 2 + g / 4 + w / 2, (b / 2 + g / 4) * Real.sqrt 3] := by
  obtain ⟨a, b, h⟩ := h
  simp only [cellSites, Set.mem_insert_iff, Set.mem_singleton_iff] at h
  rcases h with rfl | rfl | rfl
  · refine ⟨a, b, 0, 0, pt2_ext ?_ ?_⟩ <;> simp [tri]; ring
  · refine ⟨a, b, 1, 0, pt2_ext ?_ ?_⟩ <;> simp [tri]; ring
  · refine ⟨a, b, 0, 1, pt2_ext ?_ ?_⟩ <;> simp [tri]; ring

theorem quant (k : Kind) {s t : Pt 2} (hs : s ∈ whole k) (ht : t ∈ whole k) :
    ∃ z : ℤ, (s 0 - t 0) ^ 2 + (s 1 - t 1) ^ 2 = (z : ℝ) / denom k := by
  have h3 := s3
  cases k with
  | square =>
    obtain ⟨a, b, rfl⟩ := hs
    obtain ⟨a', b', rfl⟩ := ht
    refine ⟨(a - a') ^ 2 + (b - b') ^ 2, ?_⟩
    simp [sq, denom]
  | triangle =>
    obtain ⟨a, b, rfl⟩ := hs
    obtain ⟨a', b', rfl⟩ := ht
    refine ⟨(a - a') ^ 2 + (a - a') * (b - b') + (b - b') ^ 2, ?_⟩
    simp only [tri, denom, Matrix.cons_val_zero, Matrix.cons_val_one]
    push_cast
    linear_combination ((b - b') ^ 2 / 4 : ℝ) * h3
  | honeycomb =>
    obtain ⟨a, b, e, rfl⟩ := honeycomb_coord hs
    obtain ⟨a', b', e', rfl⟩ := honeycomb_coord ht
    refine ⟨3 * ((a - a') ^ 2 + (a - a') * (b - b') + (b - b') ^ 2 + (b - b') * (e - e')) +
      (e - e') ^ 2, ?_⟩
    simp only [denom, Matrix.cons_val_zero, Matrix.cons_val_one]
    push_cast
    linear_combination (((b - b') / 2 + (e - e') / 3) ^ 2 : ℝ) * h3
  | kagome =>
    obtain ⟨a, b, g, w, rfl⟩ := kagome_coord hs
    obtain ⟨a', b', g', w', rfl⟩ := kagome_coord ht
    refine ⟨(2 * (b - b') + (g - g')) ^ 2 +
      (2 * (b - b') + (g - g')) * (2 * (a - a') + (w - w')) + (2 * (a - a') + (w - w')) ^ 2 , ?_⟩
    simp only [denom, Matrix.cons_val_zero, Matrix.cons_val_one]
    push_cast
    linear_combination (((b - b') / 2 + (g - g') / 4) ^ 2 : ℝ) * h3

theorem ndist_sq (s t : Pt 2) : ndist s t ^ 2 = (s 0 - t 0) ^ 2 + (s 1 - t 1) ^ 2 := by
  rw [ndist_two, Real.sq_sqrt (by positivity)]

theorem nn_sq (k : Kind) : nn k ^ 2 = 1 / denom k := by
  have := denom_pos k
  rw [nn, Real.sq_sqrt (by positivity)]

theorem nn_nonneg (k : Kind) : 0 ≤ nn k := Real.sqrt_nonneg _

theorem nn_le (k : Kind) : nn k ≤ 1 := by
  have h1 := nn_sq k
  have h2 := one_le_denom k
  have h3 : 1 / (denom k : ℝ) ≤ 1 := by rw [div_le_one (denom_pos k)]; exact h2
  nlinarith [nn_nonneg k]

/-- Different sites are at the nearest-neighbour distance, or clearly farther apart. -/
theorem gap (k : Kind) {s t : Pt 2} (hs : s ∈ whole k) (ht : t ∈ whole k) (hne : s ≠ t) :
    ndist s t = nn k ∨ nn k + 1 / 10000 < ndist s t := by
  obtain ⟨z, hz⟩ := quant k hs ht
  have hN := denom_pos k
  have hpos : 0 < (s 0 - t 0) ^ 2 + (s 1 - t 1) ^ 2 := by
    rcases eq_or_ne (s 0) (t 0) with h0 | h0
    · have h1 : s 1 ≠ t 1 := fun h1 => hne (pt2_ext h0 h1)
      have := sub_ne_zero.2 h1
      positivity
    · have := sub_ne_zero.2 h0
      positivity
  have hd : (z : ℝ) = ndist s t ^ 2 * denom k := by
    rw [ndist_sq, hz]; field_simp
  have hnn : nn k ^ 2 * denom k = 1 := by rw [nn_sq]; field_simp
  have h0 : 0 ≤ ndist s t := Real.sqrt_nonneg _
  have hz0 : 0 < z := by
    rw [hz] at hpos
    have : (0 : ℝ) < z := by
      by_contra hc
      have := div_nonpos_of_nonpos_of_nonneg (not_lt.1 hc) hN.le
      linarith
    exact_mod_cast this
  rcases eq_or_lt_of_le (show (1 : ℤ) ≤ z from hz0) with h1 | h1
  · left
    have : ndist s t ^ 2 = nn k ^ 2 := by
      have e : ndist s t ^ 2 * denom k = nn k ^ 2 * denom k := by rw [← hd, hnn, ← h1]; simp
      exact mul_right_cancel₀ hN.ne' e
    exact (sq_eq_sq₀ h0 (nn_nonneg k)).1 this
  · right
    by_contra hc
    have hle := not_lt.1 hc
    have h2 : (2 : ℝ) ≤ z := by exact_mod_cast h1
    have hb : ndist s t ^ 2 ≤ (nn k + 1 / 10000) ^ 2 := by
      have := nn_nonneg k
      gcongr
    have hb2 : ndist s t ^ 2 * denom k ≤ (nn k + 1 / 10000) ^ 2 * denom k :=
      mul_le_mul_of_nonneg_right hb hN.le
    have e : (nn k + 1 / 10000) ^ 2 * denom k =
        nn k ^ 2 * denom k + (2 / 10000 * nn k + 1 / 10000 ^ 2) * denom k := by ring
    rw [e, hnn, ← hd] at hb2
    have : (2 / 10000 * nn k + 1 / 10000 ^ 2) * denom k ≤ (2 / 10000 * 1 + 1 / 10000 ^ 2) * 4 := by
      have h1 := nn_le k
      have h2 := denom_le k
      have h3 := nn_nonneg k
      gcongr
    norm_num at this
    linarith

/-- Two nearest neighbours: the origin and a second site. -/
noncomputable def second : Kind → Bool → Pt 2
  | .square, true => sq 1 0
  | .square, false => sq 0 1
  | .triangle, true => tri 1 0
  | .triangle, false => tri 0 1
  | .honeycomb, _ => tri 0 0 + ![0, 1 / Real.sqrt 3]
  | .kagome, _ => tri 0 0 + ![1 / 2, 0]

/-- The origin. -/
noncomputable def first : Kind → Pt 2
  | .square => sq 0 0
  | _ => tri 0 0

theorem first_mem (k : Kind) {n0 n1 : ℤ} (h0 : 0 ≤ n0) (h1 : 0 ≤ n1) : first k ∈ block k n0 n1 := by
  refine ⟨0, 0, ⟨by simpa using h0, by simpa using h1⟩, ?_⟩
  cases k <;> simp [first, cellSites]

theorem second_mem (k : Kind) (x : Bool) {n0 n1 : ℤ} (h0 : 0 ≤ n0) (h1 : 0 ≤ n1)
    (hx : perCell k = 1 → if x then 1 ≤ n0 else 1 ≤ n1) : second k x ∈ block k n0 n1 := by
  cases k with
  | honeycomb =>
    exact ⟨0, 0, ⟨by simpa using h0, by simpa using h1⟩, by simp [second, cellSites]⟩
  | kagome =>
    exact ⟨0, 0, ⟨by simpa using h0, by simpa using h1⟩, by simp [second, cellSites]⟩
  | square =>
    have := hx rfl
    cases x with
    | true => exact ⟨1, 0, ⟨by simpa using this, by simpa using h1⟩, rfl⟩
    | false => exact ⟨0, 1, ⟨by simpa using h0, by simpa using this⟩, rfl⟩
  | triangle =>
    have := hx rfl
    cases x with
    | true => exact ⟨1, 0, ⟨by simpa using this, by simpa using h1⟩, rfl⟩
    | false => exact ⟨0, 1, ⟨by simpa using h0, by simpa using this⟩, rfl⟩

theorem dist_first_second (k : Kind) (x : Bool) : ndist (first k) (second k x) = nn k := by
  rw [ndist_two, nn]
  congr 1
  have h3 := s3
  have i3 := inv_s3
  rw [one_div] at i3
  cases k <;> cases x <;>
    simp only [first, second, sq, tri, denom, Pi.add_apply, Matrix.cons_val_zero,
      Matrix.cons_val_one, one_div, i3] <;> push_cast <;>
    first
      | ring1
      | linear_combination (1 / 4 : ℝ) * h3
      | linear_combination (1 / 9 : ℝ) * h3
  

theorem nn_pos (k : Kind) : 0 < nn k := Real.sqrt_pos.2 (by have := denom_pos k; positivity)

theorem first_ne_second (k : Kind) (x : Bool) : first k ≠ second k x := by
  intro h
  have := dist_first_second k x
  rw [← h, ndist_self] at this
  exact (nn_pos k).ne this

theorem block_sub (k : Kind) (n0 n1 : ℤ) : block k n0 n1 ⊆ whole k := by
  rintro s ⟨a, b, _, h⟩
  exact ⟨a, b, h⟩

theorem nn_isNN (k : Kind) : IsNNDistance (whole k) (nn k) := by
  refine ⟨⟨first k, block_sub k 1 1 (first_mem k (by omega) (by omega)), second k true,
    block_sub k 1 1 (second_mem k true (by omega) (by omega) (fun _ => by simp)),
    first_ne_second k true, dist_first_second k true⟩, ?_⟩
  intro s hs t ht hne
  rcases gap k hs ht hne with h | h <;> linarith

theorem nn_unique (k : Kind) {d : ℝ} (h : IsNNDistance (whole k) d) : d = nn k := by
  obtain ⟨⟨s, hs, t, ht, hne, rfl⟩, h2⟩ := h
  obtain ⟨⟨s', hs', t', ht', hne', he'⟩, h4⟩ := nn_isNN k
  have := h2 s' hs' t' ht' hne'
  have := h4 s hs t ht hne
  linarith

/-- The smallest drawn distance is the nearest-neighbour distance of the lattice. -/
theorem listMin_drawn (k : Kind) {n0 n1 : ℤ} (h0 : 0 ≤ n0) (h1 : 0 ≤ n1)
    (h2 : 1 < (drawn k n0 n1).length) :
    pdist (drawn k n0 n1) ≠ [] ∧ KP.listMin (pdist (drawn k n0 n1)) = nn k := by
  have hmem : nn k ∈ pdist (drawn k n0 n1) := by
    have hx : ∃ x : Bool, perCell k = 1 → if x then 1 ≤ n0 else 1 ≤ n1 := by
      rcases lt_or_ge 0 n0 with h | h
      · exact ⟨true, fun _ => by simp only [if_true]; omega⟩
      · refine ⟨false, fun hp => ?_⟩
        have : n0 = 0 := by omega
        rw [length_drawn, hp, this] at h2
        simp at h2 ⊢
        omega
    obtain ⟨x, hx⟩ := hx
    obtain ⟨i, hi, e1⟩ := List.getElem_of_mem ((mem_drawn k n0 n1 _).2 (first_mem k h0 h1))
    obtain ⟨j, hj, e2⟩ := List.getElem_of_mem ((mem_drawn k n0 n1 _).2 (second_mem k x h0 h1 hx))
    rw [mem_pdist]
    rcases lt_trichotomy i j with h | h | h
    · exact ⟨i, j, _, _, h, List.getElem?_eq_getElem hi, List.getElem?_eq_getElem hj, by
        rw [e1, e2, dist_first_second]⟩
    · subst h
      exact absurd (e1.symm.trans e2) (first_ne_second k x)
    · exact ⟨j, i, _, _, h, List.getElem?_eq_getElem hj, List.getElem?_eq_getElem hi, by
        rw [e1, e2, ndist_comm, dist_first_second]⟩
  have hne : pdist (drawn k n0 n1) ≠ [] := List.ne_nil_of_mem hmem
  refine ⟨hne, le_antisymm (KP.listMin_le _ _ hmem) ?_⟩
  obtain ⟨a, b, p, q, hab, ha, hb, e⟩ := mem_pdist.1 (KP.listMin_mem _ hne)
  rw [e]
  obtain ⟨ha', rfl⟩ := List.getElem?_eq_some_iff.1 ha
  obtain ⟨hb', rfl⟩ := List.getElem?_eq_some_iff.1 hb
  refine (nn_isNN k).2 _ (block_sub k n0 n1 ((mem_drawn _ _ _ _).1 (List.getElem_mem ha'))) _
    (block_sub k n0 n1 ((mem_drawn _ _ _ _).1 (List.getElem_mem hb'))) ?_
  intro h
  have := (nodup_drawn k n0 n1).getElem_inj_iff.1 h
  omega

end Verif.D2L
