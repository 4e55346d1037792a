import Verif.Proofs.LatticeSites
import Verif.Proofs.ShellBuilt
/-!
# The points of the built-in lattices give different sites
-/

namespace Verif.LDB

open Verif.Latt Demo

variable {n m p prec : ℕ} {n0 n1 n2 : ℤ} {coordOf : ℝ → Coord}

theorem bound_cell (hm : m ≤ 3) {u : Pt m} {V : Fin m → Pt m} {r ns : Fin m → ℤ} (hu : ∀ a, |u a| ≤ 1)
    (hV : ∀ i a, |V i a| ≤ 1) (hr : ∀ q, 0 ≤ r q ∧ r q < ns q) (hn : ∀ q, ns q ≤ 30000) (a : Fin m) :
    |(u + comb V r) a| ≤ 100000 := by
  have h1 : |comb V r a| ≤ ∑ _i : Fin m, (30000 : ℝ) := by
    unfold comb
    refine (Finset.abs_sum_le_sum_abs _ _).trans (Finset.sum_le_sum fun i _ => ?_)
    rw [abs_mul]
    have h2 : |(r i : ℝ)| ≤ 30000 := by
      rw [abs_of_nonneg (by exact_mod_cast (hr i).1)]
      exact_mod_cast (hr i).2.le.trans (hn i)
    calc |(r i : ℝ)| * |V i a| ≤ 30000 * 1 := mul_le_mul h2 (hV i a) (abs_nonneg _) (by norm_num)
      _ = 30000 := by norm_num
  have h3 : (m : ℝ) ≤ 3 := by exact_mod_cast hm
  rw [Finset.sum_const, Finset.card_univ, Fintype.card_fin, nsmul_eq_mul] at h1
  rw [Pi.add_apply]
  have := abs_add_le (u a) (comb V r a)
  have := hu a
  nlinarith

theorem distinguishes_of_good {S : Set (Pt m)} {count : ℕ} {v : Fin m → Pt m} {r : Py Built} (hg : Good prec S count v r)
    (hsep : Separated (1 / 10) S) (hm1 : 1 ≤ m) (hm3 : m ≤ 3) (hp2 : 2 ≤ p) (hp : p ≤ 22) (hf : NearFloats coordOf)
    (hb : ∀ L : Lat count m m, r = .ok ⟨count, m, m, L⟩ → ∀ i a, |L.points i a| ≤ 100000) {B : Built} (hB : r = .ok B) :
    Distinguishes (10 ^ p) coordOf B.lat.points := by
  obtain ⟨L, h1, -, -, h4, -⟩ := hg
  have hbL := hb L h1
  rw [h1] at hB
  cases hB
  refine distinguishes_of_separated hm1 hm3 hp2 hp hf hbL fun i j hij => ?_
  have hin : ∀ i, L.points i ∈ S := fun i => by
    have := h4.inside i 0
    rwa [comb_zero, add_zero] at this
  refine hsep _ (hin i) _ (hin j) fun e => hij ?_
  have := h4.covers _ (hin i)
  obtain ⟨w, -, hw⟩ := this
  have a1 := hw (i, 0) (show L.points i = L.points i + comb L.vectors 0 by rw [comb_zero, add_zero])
  have a2 := hw (j, 0) (show L.points i = L.points j + comb L.vectors 0 by rw [comb_zero, add_zero]; exact e)
  exact congrArg Prod.fst (a1.trans a2.symm)

theorem r3_bounds : 1 < r3 ∧ r3 < 2 := by
  constructor
  · exact Real.lt_sqrt_of_sq_lt (by norm_num)
  · rw [r3, Real.sqrt_lt' (by norm_num)]; norm_num

theorem not_error {h : Prop} (hn : ¬ h) [Decidable h] {α : Type} {f : Unit → Py α} {B : α}
    (e : (pyAssert (decide h) >>= f) = .ok B) : False := by
  simp [pyAssert, hn, bind, Except.bind, raise] at e

theorem sizes_pos {which : String} {B : Built} (h : latticeGenerator prec which n0 n1 n2 = .ok B) :
    1 ≤ n0 ∧ 1 ≤ n1 ∧ 1 ≤ n2 := by
  unfold latticeGenerator at h
  by_cases h0 : 1 ≤ n0
  swap
  · exact (not_error h0 h).elim
  rw [show pyAssert (decide (1 ≤ n0)) = .ok () by simp [pyAssert, h0]] at h
  by_cases h1 : 1 ≤ n1
  swap
  · exact (not_error h1 h).elim
  rw [show pyAssert (decide (1 ≤ n1)) = .ok () by simp [pyAssert, h1]] at h
  by_cases h2 : 1 ≤ n2
  swap
  · exact (not_error h2 h).elim
  exact ⟨h0, h1, h2⟩

theorem bound_2d (h0 : 1 ≤ n0) (h1 : 1 ≤ n1) (h2 : 1 ≤ n2) (b0 : n0 ≤ 30000) (b1 : n1 ≤ 30000) {which : String}
    {info : Info 2} (hw : commonCell which = some ⟨2, info⟩) (hc : which ≠ "chain") (hcu : which ≠ "cubic")
    (hu : ∀ u ∈ info.points, ∀ a, |u a| ≤ 1) (hV : ∀ i a, |info.vectors i a| ≤ 1) {count : ℕ} (L : Lat count 2 2)
    (h : latticeGenerator prec which n0 n1 n2 = .ok ⟨count, 2, 2, L⟩) (i : Fin count) (a : Fin 2) :
    |L.points i a| ≤ 100000 := by
  obtain ⟨u, hu', r, hr, e⟩ := cell_2d h0 h1 h2 hw hc hcu h i
  rw [e]
  exact bound_cell (by norm_num) (hu u hu') hV hr (fun q => by fin_cases q <;> assumption) a

theorem sites_chain (hprec : 1 ≤ prec) (h0 : 1 ≤ n0) (h1 : 1 ≤ n1) (h2 : 1 ≤ n2) (b0 : n0 ≤ 30000)
    (hp2 : 2 ≤ p) (hp : p ≤ 22) (hf : NearFloats coordOf) {B : Built}
    (hB : latticeGenerator prec "chain" n0 n1 n2 = .ok B) : Distinguishes (10 ^ p) coordOf B.lat.points := by
  refine distinguishes_of_good (good_chain hprec h0 h1 h2) separated_chain (by norm_num) (by norm_num) hp2 hp hf
    (fun L h i a => ?_) hB
  obtain ⟨u, hu, r, hr, e⟩ := cell_1d h0 h1 h2 h i
  rw [e]
  refine bound_cell (by norm_num) ?_ ?_ hr (fun q => by fin_cases q; assumption) a
  · simp only [chainCell, List.mem_singleton] at hu
    subst hu
    intro a; fin_cases a; simp
  · intro i a; fin_cases i; fin_cases a; simp [chainCell]

theorem sites_cubic (hprec : 1 ≤ prec) (h0 : 1 ≤ n0) (h1 : 1 ≤ n1) (h2 : 1 ≤ n2) (b0 : n0 ≤ 30000) (b1 : n1 ≤ 30000)
    (b2 : n2 ≤ 30000) (hp2 : 2 ≤ p) (hp : p ≤ 22) (hf : NearFloats coordOf) {B : Built}
    (hB : latticeGenerator prec "cubic" n0 n1 n2 = .ok B) : Distinguishes (10 ^ p) coordOf B.lat.points := by
  refine distinguishes_of_good (good_cubic hprec h0 h1 h2) separated_cubic (by norm_num) (by norm_num) hp2 hp hf
    (fun L h i a => ?_) hB
  obtain ⟨u, hu, r, hr, e⟩ := cell_3d h0 h1 h2 h i
  rw [e]
  refine bound_cell (by norm_num) ?_ ?_ hr (fun q => by fin_cases q <;> assumption) a
  · simp only [cubicCell, List.mem_singleton] at hu
    subst hu
    intro a; fin_cases a <;> simp
  · intro i a; fin_cases i <;> fin_cases a <;> simp [cubicCell]

theorem hex_vectors (i a : Fin 2) : |(![![1, 0], ![1 / 2, r3 / 2]] : Fin 2 → Pt 2) i a| ≤ 1 := by
  have h1 := r3_bounds.1
  have h2 := r3_bounds.2
  fin_cases i <;> fin_cases a <;> simp [abs_le] <;> norm_num <;> (try constructor) <;> linarith

theorem sites_2d (hprec : 1 ≤ prec) (h0 : 1 ≤ n0) (h1 : 1 ≤ n1) (h2 : 1 ≤ n2) (b0 : n0 ≤ 30000) (b1 : n1 ≤ 30000)
    (hp2 : 2 ≤ p) (hp : p ≤ 22) (hf : NearFloats coordOf) {B : Built} {which : String}
    (hw : which = "square" ∨ which = "triangle" ∨ which = "honeycomb" ∨ which = "kagome")
    (hB : latticeGenerator prec which n0 n1 n2 = .ok B) : Distinguishes (10 ^ p) coordOf B.lat.points := by
  have g1 := r3_bounds.1
  have g2 := r3_bounds.2
  have g3 : r3⁻¹ ≤ 1 := inv_le_one_of_one_le₀ g1.le
  have g4 : 0 < r3⁻¹ := inv_pos.2 r3_pos
  rcases hw with rfl | rfl | rfl | rfl
  · refine distinguishes_of_good (good_square hprec h0 h1 h2) separated_square (by norm_num) (by norm_num) hp2 hp hf
      (bound_2d (info := squareCell) h0 h1 h2 b0 b1 (by simp [commonCell]) (by decide) (by decide) ?_ ?_) hB
    · intro u hu a
      simp only [squareCell, List.mem_singleton] at hu
      subst hu
      fin_cases a <;> simp
    · intro i a; fin_cases i <;> fin_cases a <;> simp [squareCell]
  · refine distinguishes_of_good (good_triangle hprec h0 h1 h2) separated_triangle (by norm_num) (by norm_num) hp2 hp hf
      (bound_2d (info := triangleCell) h0 h1 h2 b0 b1 (by simp [commonCell]) (by decide) (by decide) ?_ hex_vectors) hB
    intro u hu a
    simp only [triangleCell, List.mem_singleton] at hu
    subst hu
    fin_cases a <;> simp
  · refine distinguishes_of_good (good_honeycomb hprec h0 h1 h2) separated_honeycomb (by norm_num) (by norm_num) hp2 hp hf
      (bound_2d (info := honeycombCell) h0 h1 h2 b0 b1 (by simp [commonCell]) (by decide) (by decide) ?_ hex_vectors) hB
    intro u hu a
    simp only [honeycombCell, List.mem_cons, List.not_mem_nil, or_false] at hu
    rcases hu with rfl | rfl <;> fin_cases a <;> simp [div_eq_mul_inv, abs_of_pos r3_pos] <;> linarith
  · refine distinguishes_of_good (good_kagome hprec h0 h1 h2) separated_kagome (by norm_num) (by norm_num) hp2 hp hf
      (bound_2d (info := kagomeCell) h0 h1 h2 b0 b1 (by simp [commonCell]) (by decide) (by decide) ?_ hex_vectors) hB
    intro u hu a
    simp only [kagomeCell, List.mem_cons, List.not_mem_nil, or_false] at hu
    rcases hu with rfl | rfl | rfl <;> fin_cases a <;> simp [abs_le] <;> norm_num <;> constructor <;> linarith

theorem bound_special {which : String} {info : Info 2} (hw : specialInfo which = some ⟨2, info⟩)
    (hb : ∀ u ∈ info.points, ∀ a, |u a| ≤ 100000) {count : ℕ} (L : Lat count 2 2)
    (h : specialCluster prec which = .ok ⟨count, 2, 2, L⟩) (i : Fin count) (a : Fin 2) : |L.points i a| ≤ 100000 := by
  unfold specialCluster at h
  rw [hw] at h
  exact hb _ (mk_points h i) a

theorem sites_special (hprec : 1 ≤ prec) (hp2 : 2 ≤ p) (hp : p ≤ 22) (hf : NearFloats coordOf) {B : Built} {which : String}
    (hB : specialCluster prec which = .ok B) : Distinguishes (10 ^ p) coordOf B.lat.points := by
  have g1 := r3_bounds.1
  have g2 := r3_bounds.2
  have g3 : r3⁻¹ ≤ 1 := inv_le_one_of_one_le₀ g1.le
  have g4 : 0 < r3⁻¹ := inv_pos.2 r3_pos
  have key : ∀ {S : Set (Pt 2)} {info : Info 2}, LTiling S info.points info.vectors → Separated (1 / 10) S →
      info.points ≠ [] →
      info.vectors 0 0 * info.vectors 1 1 - info.vectors 0 1 * info.vectors 1 0 ≠ 0 →
      specialInfo which = some ⟨2, info⟩ → (∀ u ∈ info.points, ∀ a, |u a| ≤ 100000) →
      Distinguishes (10 ^ p) coordOf B.lat.points := fun h hs hl hd hw hb =>
    distinguishes_of_good (good_special h hs hprec hl hd which hw) hs (by norm_num) (by norm_num) hp2 hp hf
      (bound_special hw hb) hB
  have hne : specialInfo which ≠ none := by
    intro h
    unfold specialCluster at hB
    rw [h] at hB
    cases hB
  by_cases c1 : which ∈ ["square_cross", "square_12", "cross"]
  · refine key (info := squareCross) tiling_squareCross (separated_square.shift _) (by simp [squareCross])
      (by simp [squareCross]; norm_num) (by simp only [specialInfo, if_pos c1]) ?_
    simp [squareCross, Fin.forall_fin_two, abs_of_pos] ; norm_num
  by_cases c2 : which ∈ ["square_z", "z"]
  · refine key (info := squareZ) tiling_squareZ (separated_square.shift _) (by simp [squareZ])
      (by simp [squareZ]; norm_num) (by simp only [specialInfo, if_neg c1, if_pos c2]) ?_
    simp [squareZ, Fin.forall_fin_two, abs_of_pos] ; norm_num
  by_cases c3 : which ∈ ["square_s", "s"]
  · refine key (info := squareS) tiling_squareS (separated_square.shift _) (by simp [squareS])
      (by simp [squareS]; norm_num) (by simp only [specialInfo, if_neg c1, if_neg c2, if_pos c3]) ?_
    simp [squareS, Fin.forall_fin_two, abs_of_pos] ; norm_num
  by_cases c4 : which ∈ ["triangle_star", "triangle_13", "star", "SD"]
  · refine key (info := triangleStar) tiling_triangleStar (separated_triangle.shift _) (by simp [triangleStar]) (by
      simp only [triangleStar, Matrix.cons_val_zero, Matrix.cons_val_one, Matrix.cons_val_fin_one]
      have := r3_pos
      nlinarith) (by simp only [specialInfo, if_neg c1, if_neg c2, if_neg c3, if_pos c4]) ?_
    simp [triangleStar, Fin.forall_fin_two, abs_of_pos, abs_of_pos r3_pos, abs_div]
    and_intros <;> linarith
  by_cases c5 : which ∈ ["honeycomb_benzene", "honeycomb_6", "benzene"]
  · refine key (info := honeycombBenzene) tiling_honeycombBenzene (separated_honeycomb.shift _) (by simp [honeycombBenzene]) (by
      simp only [honeycombBenzene, Matrix.cons_val_zero, Matrix.cons_val_one, Matrix.cons_val_fin_one]
      have := r3_pos
      nlinarith) (by simp only [specialInfo, if_neg c1, if_neg c2, if_neg c3, if_neg c4, if_pos c5]) ?_
    simp [honeycombBenzene, Fin.forall_fin_two, abs_of_pos, abs_of_pos r3_pos, abs_div, div_eq_mul_inv]
    and_intros <;> linarith
  by_cases c6 : which ∈ ["honeycomb_diphenyl", "honeycomb_10", "diphenyl"]
  · refine key (info := honeycombDiphenyl) tiling_honeycombDiphenyl (separated_honeycomb.shift _) (by simp [honeycombDiphenyl]) (by
      simp only [honeycombDiphenyl, Matrix.cons_val_zero, Matrix.cons_val_one, Matrix.cons_val_fin_one]
      have := r3_pos
      nlinarith) (by simp only [specialInfo, if_neg c1, if_neg c2, if_neg c3, if_neg c4, if_neg c5, if_pos c6]) ?_
    simp [honeycombDiphenyl, Fin.forall_fin_two, abs_of_pos, abs_of_pos r3_pos, abs_div, div_eq_mul_inv]
    and_intros <;> linarith
  by_cases c7 : which ∈ ["honeycomb_gear", "honeycomb_24", "gear"]
  · refine key (info := honeycombGear) tiling_honeycombGear (separated_honeycomb.shift _) (by simp [honeycombGear]) (by
      simp only [honeycombGear, Matrix.cons_val_zero, Matrix.cons_val_one, Matrix.cons_val_fin_one]
      have := r3_pos
      nlinarith) (by simp only [specialInfo, if_neg c1, if_neg c2, if_neg c3, if_neg c4, if_neg c5, if_neg c6, if_pos c7]) ?_
    simp [honeycombGear, Fin.forall_fin_two, abs_of_pos, abs_of_pos r3_pos, abs_div, div_eq_mul_inv]
    and_intros <;> linarith
  exact absurd (by simp only [specialInfo, if_neg c1, if_neg c2, if_neg c3, if_neg c4, if_neg c5, if_neg c6, if_neg c7]) hne

end Verif.LDB
