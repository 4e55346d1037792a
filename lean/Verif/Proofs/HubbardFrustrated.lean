import Verif.Proofs.HubbardRuns
import Verif.Proofs.NearestBuilt
import Verif.Props.LatticeDatabase
/-!
# Lemmas for C116: which of the built-in clusters are bipartite
-/

namespace Verif.LDB

open Verif.Latt

variable {m prec : ℕ} {n0 n1 n2 : ℤ}

theorem colourable_of_tiling {m count : ℕ} {d : ℝ} {S : Set (Pt m)} (hc : Coloured S d) {v : Fin m → Pt m} {r : Py Built}
    (ht : ReturnsTiling S count v r) {L : Lat count m m} (hL : r = .ok ⟨count, m, m, L⟩) : TwoColourable d L.points := by
  obtain ⟨L', h1, -, h2⟩ := ht
  rw [h1] at hL
  have hB := Except.ok.inj hL
  simp only [Built.mk.injEq, heq_eq_eq, true_and] at hB
  subst hB
  exact twoColourable_of hc h2

theorem mk_points_surj {l : List (Pt m)} {v : Fin m → Pt m} {count : ℕ} {L : Lat count m m}
    (h : mkLattice prec l v = .ok ⟨count, m, m, L⟩) : ∀ p ∈ l, ∃ i, L.points i = p := by
  unfold mkLattice at h
  rcases hi : init prec l.get v with e | L'
  · rw [hi] at h; simp [Except.map] at h
  · rw [hi] at h
    have hB : (⟨l.length, m, m, L'⟩ : Built) = ⟨count, m, m, L⟩ := Except.ok.inj h
    have hc : l.length = count := congrArg Built.n hB
    subst hc
    simp only [Built.mk.injEq, heq_eq_eq, true_and] at hB
    subst hB
    obtain ⟨h1, _⟩ := C46_reciprocal_dual hi
    intro p hp
    obtain ⟨i, hi⟩ := List.get_of_mem hp
    exact ⟨i, by rw [h1, hi]⟩

theorem points_2d (h0 : 1 ≤ n0) (h1 : 1 ≤ n1) (h2 : 1 ≤ n2) {which : String} {info : Info 2}
    (hw : commonCell which = some ⟨2, info⟩) (hc : which ≠ "chain") (hcu : which ≠ "cubic")
    {count : ℕ} {L : Lat count 2 2} (h : latticeGenerator prec which n0 n1 n2 = .ok ⟨count, 2, 2, L⟩)
    {u : Pt 2} (hu : u ∈ info.points) (r : Fin 2 → ℤ) (hr : ∀ q, 0 ≤ r q ∧ r q < (![n0, n1] : Fin 2 → ℤ) q) :
    ∃ i, L.points i = comb info.vectors r + u := by
  rw [generator_unfold h0 h1 h2, hw] at h
  dsimp only at h
  rw [if_neg hc, if_neg hcu] at h
  have hr0 := hr 0
  have hr1 := hr 1
  simp only [Matrix.cons_val_zero, Matrix.cons_val_one] at hr0 hr1
  by_cases ho : n0 = 1 ∧ n1 = 1
  · rw [if_pos ho] at h
    obtain ⟨i, hi⟩ := mk_points_surj h u hu
    refine ⟨i, ?_⟩
    have : r = 0 := by
      funext q
      fin_cases q
      · change r 0 = 0; omega
      · change r 1 = 0; omega
    rw [hi, this, comb_zero, zero_add]
  · rw [if_neg ho, superLattice, if_pos (show [n0, n1].length = 2 from rfl)] at h
    refine mk_points_surj h _ ?_
    unfold superPoints
    refine List.mem_flatMap.2 ⟨r, (mem_prodRange _ _).2 fun q => ?_, List.mem_map.2 ⟨u, hu, rfl⟩⟩
    have := hr q
    fin_cases q <;> exact this

/-- Three points at distance `d` from each other. -/
theorem not_twoColourable {n : ℕ} {d : ℝ} {points : Fin n → Pt m} {i j k : Fin n} (h1 : ndist (points i) (points j) = d)
    (h2 : ndist (points j) (points k) = d) (h3 : ndist (points k) (points i) = d) : ¬ TwoColourable d points := by
  rintro ⟨c, hc⟩
  have a := hc _ _ h1
  have b := hc _ _ h2
  have e := hc _ _ h3
  revert a b e
  cases c i <;> cases c j <;> cases c k <;> simp

theorem kagome_frustrated (h0 : 1 ≤ n0) (h1 : 1 ≤ n1) (h2 : 1 ≤ n2) {count : ℕ} {L : Lat count 2 2}
    (h : latticeGenerator prec "kagome" n0 n1 n2 = .ok ⟨count, 2, 2, L⟩) : ¬ TwoColourable (1 / 2) L.points := by
  have hz : ∀ q : Fin 2, 0 ≤ (0 : Fin 2 → ℤ) q ∧ (0 : Fin 2 → ℤ) q < (![n0, n1] : Fin 2 → ℤ) q := fun q => by
    fin_cases q
    · exact ⟨le_rfl, by change (0 : ℤ) < n0; omega⟩
    · exact ⟨le_rfl, by change (0 : ℤ) < n1; omega⟩
  have hp : ∀ u ∈ kagomeCell.points, ∃ i, L.points i = u := fun u hu => by
    obtain ⟨i, hi⟩ := points_2d h0 h1 h2 (info := kagomeCell) (by simp [commonCell]) (by decide) (by decide) h hu 0 hz
    exact ⟨i, by rw [hi, comb_zero, zero_add]⟩
  obtain ⟨i, hi⟩ := hp ![0, 0] (by simp [kagomeCell])
  obtain ⟨j, hj⟩ := hp ![1 / 4, r3 / 4] (by simp [kagomeCell])
  obtain ⟨k, hk⟩ := hp ![1 / 2, 0] (by simp [kagomeCell])
  have h3 : r3 * r3 = 3 := r3_sq
  refine not_twoColourable (i := i) (j := j) (k := k) ?_ ?_ ?_ <;>
    rw [ndist_eq_iff (by norm_num)] <;> simp only [hi, hj, hk, Fin.sum_univ_two, Matrix.cons_val_zero, Matrix.cons_val_one,
      Matrix.cons_val_fin_one] <;> nlinarith

theorem star_frustrated {which : String} (hw : which ∈ ["triangle_star", "triangle_13", "star", "SD"])
    {count : ℕ} {L : Lat count 2 2} (h : specialCluster prec which = .ok ⟨count, 2, 2, L⟩) :
    ¬ TwoColourable 1 L.points := by
  have hp : ∀ u ∈ triangleStar.points, ∃ i, L.points i = u := by
    have hi : specialInfo which = some ⟨2, triangleStar⟩ := by
      simp only [List.mem_cons, List.not_mem_nil, or_false] at hw
      rcases hw with rfl | rfl | rfl | rfl <;> simp [specialInfo]
    unfold specialCluster at h
    rw [hi] at h
    exact mk_points_surj h
  obtain ⟨i, hi⟩ := hp ![0, 0] (by simp [triangleStar])
  obtain ⟨j, hj⟩ := hp ![1, 0] (by simp [triangleStar])
  obtain ⟨k, hk⟩ := hp ![1 / 2, r3 / 2] (by simp [triangleStar])
  have h3 : r3 * r3 = 3 := r3_sq
  refine not_twoColourable (i := i) (j := j) (k := k) ?_ ?_ ?_ <;>
    rw [ndist_eq_iff (by norm_num)] <;> simp only [hi, hj, hk, Fin.sum_univ_two, Matrix.cons_val_zero, Matrix.cons_val_one,
      Matrix.cons_val_fin_one] <;> nlinarith

theorem triangle_frustrated (h0 : 1 ≤ n0) (h1 : 1 ≤ n1) (h2 : 1 ≤ n2) {count : ℕ} {L : Lat count 2 2}
    (h : latticeGenerator prec "triangle" n0 n1 n2 = .ok ⟨count, 2, 2, L⟩) :
    TwoColourable 1 L.points ↔ n0 = 1 ∨ n1 = 1 := by
  have h3 : r3 * r3 = 3 := r3_sq
  have hcell : commonCell "triangle" = some ⟨2, triangleCell⟩ := by simp [commonCell]
  constructor
  · intro hc
    by_contra hn
    push Not at hn
    have hp : ∀ a b : ℤ, 0 ≤ a → a < 2 → 0 ≤ b → b < 2 → ∃ i, L.points i = ![(a : ℝ) + b / 2, b * (r3 / 2)] := by
      intro a b a0 a2 b0 b2
      obtain ⟨i, hi⟩ := points_2d h0 h1 h2 (info := triangleCell) hcell (by decide) (by decide) h
        (u := ![0, 0]) (by simp [triangleCell]) ![a, b] (fun q => by
          fin_cases q
          · exact ⟨a0, by change a < n0; omega⟩
          · exact ⟨b0, by change b < n1; omega⟩)
      refine ⟨i, ?_⟩
      rw [hi]
      funext q
      fin_cases q <;> simp [comb, Fin.sum_univ_two, triangleCell] <;> ring
    obtain ⟨i, hi⟩ := hp 0 0 (by norm_num) (by norm_num) (by norm_num) (by norm_num)
    obtain ⟨j, hj⟩ := hp 1 0 (by norm_num) (by norm_num) (by norm_num) (by norm_num)
    obtain ⟨k, hk⟩ := hp 0 1 (by norm_num) (by norm_num) (by norm_num) (by norm_num)
    refine not_twoColourable (i := i) (j := j) (k := k) ?_ ?_ ?_ hc <;>
      rw [ndist_eq_iff (by norm_num)] <;> simp only [hi, hj, hk, Fin.sum_univ_two, Matrix.cons_val_zero,
        Matrix.cons_val_one, Matrix.cons_val_fin_one] <;> push_cast <;> nlinarith
  · intro hn
    have hp : ∀ i, ∃ a : ℤ, L.points i = if n1 = 1 then ![(a : ℝ), 0] else ![(a : ℝ) / 2, a * (r3 / 2)] := by
      intro i
      obtain ⟨u, hu, r, hr, he⟩ := cell_2d h0 h1 h2 (info := triangleCell) hcell (by decide) (by decide) h i
      have hu' : u = ![0, 0] := by simpa [triangleCell] using hu
      have hr0 := hr 0
      have hr1 := hr 1
      simp only [Matrix.cons_val_zero, Matrix.cons_val_one] at hr0 hr1
      by_cases e1 : n1 = 1
      · refine ⟨r 0, ?_⟩
        have e : r 1 = 0 := by omega
        rw [if_pos e1, he, hu']
        funext q
        fin_cases q <;> simp [comb, Fin.sum_univ_two, triangleCell, e]
      · refine ⟨r 1, ?_⟩
        have e : r 0 = 0 := by omega
        rw [if_neg e1, he, hu']
        funext q
        fin_cases q <;> simp [comb, Fin.sum_univ_two, triangleCell, e] <;> ring
    choose a ha using hp
    refine ⟨fun i => decide (a i % 2 = 0), fun i j hd => ?_⟩
    rw [ndist_eq_iff zero_le_one, ha, ha, Fin.sum_univ_two] at hd
    have h' : (a i - a j) ^ 2 = 1 := by
      rw [← @Int.cast_inj ℝ]
      push_cast
      split at hd
      · simpa using hd
      · simp only [Matrix.cons_val_zero, Matrix.cons_val_one, Matrix.cons_val_fin_one] at hd
        linear_combination hd - ((a i : ℝ) - a j) ^ 2 / 4 * h3
    have h'' : a i - a j = 1 ∨ a i - a j = -1 := by
      have : (a i - a j - 1) * (a i - a j + 1) = 0 := by linear_combination h'
      rcases mul_eq_zero.1 this with e | e <;> omega
    simp only [ne_eq, decide_eq_decide]
    omega

end Verif.LDB
