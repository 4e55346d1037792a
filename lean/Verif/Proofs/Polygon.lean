import Verif.Model.Polygon
import Verif.Spec.Geometry
import Verif.Props.Line2D
import Mathlib.Data.List.Rotate
import Mathlib.Data.List.Nodup
import Mathlib.Analysis.Convex.Combination
import Mathlib.Tactic.Module
/-!
# Convex polygons: half-planes and the convex hull
-/

namespace Verif

open Classical Geo

theorem mem_edges_iff (vs : List Pt) (a b : Pt) : (a, b) ∈ Polygon.edges vs ↔ IsEdge vs a b := by
  unfold Polygon.edges IsEdge
  rw [List.mem_iff_getElem?]
  constructor
  · rintro ⟨i, hi⟩
    rw [List.getElem?_zip_eq_some] at hi
    obtain ⟨h1, h2⟩ := hi
    refine ⟨i, h1, ?_⟩
    have hlt : i < vs.length := (List.getElem?_eq_some_iff.mp h1).1
    rwa [List.getElem?_rotate hlt] at h2
  · rintro ⟨i, h1, h2⟩
    refine ⟨i, ?_⟩
    rw [List.getElem?_zip_eq_some]
    have hlt : i < vs.length := (List.getElem?_eq_some_iff.mp h1).1
    exact ⟨h1, by rwa [List.getElem?_rotate hlt]⟩

theorem isEdge_left_mem {vs : List Pt} {a b : Pt} (h : IsEdge vs a b) : a ∈ vs := by
  obtain ⟨i, h1, -⟩ := h
  exact List.mem_of_getElem? h1

theorem isEdge_right_mem {vs : List Pt} {a b : Pt} (h : IsEdge vs a b) : b ∈ vs := by
  obtain ⟨i, -, h1⟩ := h
  exact List.mem_of_getElem? h1

theorem isEdge_ne {vs : List Pt} (h3 : 3 ≤ vs.length) (hn : vs.Nodup) {a b : Pt}
    (h : IsEdge vs a b) : a ≠ b := by
  obtain ⟨i, h1, h2⟩ := h
  rintro rfl
  have hlt : i < vs.length := (List.getElem?_eq_some_iff.mp h1).1
  have := (List.getElem?_inj hlt hn).mp (h1.trans h2.symm)
  rcases Nat.lt_or_ge (i + 1) vs.length with h | h
  · rw [Nat.mod_eq_of_lt h] at this
    omega
  · have e : i + 1 = vs.length := by omega
    rw [e, Nat.mod_self] at this
    omega

/-- the edge that starts where `(a, b)` ends -/
theorem isEdge_next {vs : List Pt} (h3 : 3 ≤ vs.length) (hn : vs.Nodup) {a b : Pt}
    (h : IsEdge vs a b) : ∃ c, IsEdge vs b c ∧ a ≠ c := by
  obtain ⟨i, h1, h2⟩ := h
  have hlt : i < vs.length := (List.getElem?_eq_some_iff.mp h1).1
  have hlt2 : ((i + 1) % vs.length + 1) % vs.length < vs.length := Nat.mod_lt _ (by omega)
  refine ⟨vs[((i + 1) % vs.length + 1) % vs.length], ⟨(i + 1) % vs.length, h2, ?_⟩, ?_⟩
  · exact List.getElem?_eq_getElem hlt2
  · intro hac
    rw [← Option.some_inj, ← h1, ← List.getElem?_eq_getElem hlt2] at hac
    have := (List.getElem?_inj hlt hn).mp hac
    rcases Nat.lt_or_ge (i + 1) vs.length with h | h
    · rw [Nat.mod_eq_of_lt h] at this
      rcases Nat.lt_or_ge (i + 2) vs.length with h' | h'
      · rw [Nat.mod_eq_of_lt h'] at this
        omega
      · have e : i + 1 + 1 = vs.length := by omega
        rw [e, Nat.mod_self] at this
        omega
    · have e : i + 1 = vs.length := by omega
      rw [e, Nat.mod_self, Nat.mod_eq_of_lt (by omega)] at this
      omega

/-- the edge that ends where `(a, b)` starts -/
theorem isEdge_prev {vs : List Pt} (h3 : 3 ≤ vs.length) (hn : vs.Nodup) {a b : Pt}
    (h : IsEdge vs a b) : ∃ c, IsEdge vs c a ∧ b ≠ c := by
  obtain ⟨i, h1, h2⟩ := h
  have hlt : i < vs.length := (List.getElem?_eq_some_iff.mp h1).1
  have hlt2 : (i + vs.length - 1) % vs.length < vs.length := Nat.mod_lt _ (by omega)
  have hback : ((i + vs.length - 1) % vs.length + 1) % vs.length = i := by
    rw [Nat.mod_add_mod, show i + vs.length - 1 + 1 = i + vs.length by omega, Nat.add_mod_right,
      Nat.mod_eq_of_lt hlt]
  refine ⟨vs[(i + vs.length - 1) % vs.length],
    ⟨(i + vs.length - 1) % vs.length, List.getElem?_eq_getElem hlt2, by rw [hback]; exact h1⟩, ?_⟩
  intro hac
  rw [← Option.some_inj, ← h2, ← List.getElem?_eq_getElem hlt2] at hac
  have := (List.getElem?_inj (Nat.mod_lt _ (by omega)) hn).mp hac
  rcases Nat.lt_or_ge (i + 1) vs.length with h | h
  · rw [Nat.mod_eq_of_lt h] at this
    rcases Nat.eq_zero_or_pos i with h0 | h0
    · subst h0
      rw [Nat.zero_add, Nat.mod_eq_of_lt (by omega)] at this
      omega
    · rw [show i + vs.length - 1 = (i - 1) + vs.length by omega, Nat.add_mod_right,
        Nat.mod_eq_of_lt (by omega)] at this
      omega
  · have e : i + 1 = vs.length := by omega
    rw [e, Nat.mod_self, show i + vs.length - 1 = (i - 1) + vs.length by omega, Nat.add_mod_right,
      Nat.mod_eq_of_lt (by omega)] at this
    omega

theorem cross_left (a b : Pt) : cross a b a = 0 := by unfold cross; ring

theorem cross_right (a b : Pt) : cross a b b = 0 := by unfold cross; ring

theorem cross_cycle (a b c : Pt) : cross b c a = cross a b c := by unfold cross; ring

/-- `cross a b` is affine in its third argument -/
theorem cross_combo (a b p q : Pt) (u v : ℝ) (h : u + v = 1) :
    cross a b (u • p + v • q) = u * cross a b p + v * cross a b q := by
  unfold cross
  simp only [Prod.fst_add, Prod.snd_add, Prod.smul_fst, Prod.smul_snd, smul_eq_mul]
  have : v = 1 - u := by linarith
  subst this
  ring

theorem convex_halfplane (a b : Pt) (s : ℝ) : Convex ℝ {p | 0 ≤ s * cross a b p} := by
  intro p hp q hq u v hu hv huv
  simp only [Set.mem_ofPred_eq] at hp hq ⊢
  rw [cross_combo _ _ _ _ _ _ huv, mul_add]
  have h1 := mul_nonneg hu hp
  have h2 := mul_nonneg hv hq
  have e1 : s * (u * cross a b p) = u * (s * cross a b p) := by ring
  have e2 : s * (v * cross a b q) = v * (s * cross a b q) := by ring
  rw [e1, e2]
  linarith

/-- a point with nonnegative barycentric coordinates is in the triangle -/
theorem mem_triangle {S : Set Pt} {a b c p : Pt} (ha : a ∈ S) (hb : b ∈ S) (hc : c ∈ S) {s : ℝ}
    (hd : 0 < s * cross a b c) (h1 : 0 ≤ s * cross a b p) (h2 : 0 ≤ s * cross b c p)
    (h3 : 0 ≤ s * cross c a p) : p ∈ convexHull ℝ S := by
  set D := s * cross a b c with hD
  have hconv := convex_convexHull ℝ S
  have hsum : s * cross b c p / D + s * cross c a p / D + s * cross a b p / D = 1 := by
    rw [← add_div, ← add_div, div_eq_one_iff_eq hd.ne', hD]
    unfold cross
    ring
  have hp : p = (s * cross b c p / D) • a + (s * cross c a p / D) • b + (s * cross a b p / D) • c := by
    have hD0 := hd.ne'
    ext
    · simp only [Prod.fst_add, Prod.smul_fst, smul_eq_mul]
      field_simp
      rw [hD]
      unfold cross
      ring
    · simp only [Prod.snd_add, Prod.smul_snd, smul_eq_mul]
      field_simp
      rw [hD]
      unfold cross
      ring
  rw [hp]
  have := hconv.sum_mem (t := Finset.univ (α := Fin 3))
    (w := ![s * cross b c p / D, s * cross c a p / D, s * cross a b p / D]) (z := ![a, b, c])
    (by
      intro i _
      fin_cases i
      · exact div_nonneg h2 hd.le
      · exact div_nonneg h3 hd.le
      · exact div_nonneg h1 hd.le)
    (by simpa [Fin.sum_univ_three] using hsum)
    (by
      intro i _
      fin_cases i
      · exact subset_convexHull ℝ S ha
      · exact subset_convexHull ℝ S hb
      · exact subset_convexHull ℝ S hc)
  simpa [Fin.sum_univ_three] using this

/-- a sign change of a finite sequence -/
theorem sign_change (g : ℕ → ℝ) (n : ℕ) (h1 : 0 ≤ g 1) (hn : g (n + 2) ≤ 0) :
    ∃ k, 1 ≤ k ∧ k ≤ n + 1 ∧ 0 ≤ g k ∧ g (k + 1) ≤ 0 := by
  induction n with
  | zero => exact ⟨1, le_refl _, le_refl _, h1, hn⟩
  | succ n ih =>
    rcases le_total (g (n + 2)) 0 with h | h
    · obtain ⟨k, a, b, c, d⟩ := ih h
      exact ⟨k, a, by omega, c, d⟩
    · exact ⟨n + 2, by omega, by omega, h, hn⟩

/-- The filled polygon is the intersection of the half-planes of its edges. -/
theorem mem_region_iff {vs : List Pt} (h3 : 3 ≤ vs.length) (hn : vs.Nodup) {s : ℝ}
    (hs : ∀ a b q, IsEdge vs a b → q ∈ vs → q ≠ a → q ≠ b → 0 < s * cross a b q) (p : Pt) :
    p ∈ region vs ↔ ∀ a b, IsEdge vs a b → 0 ≤ s * cross a b p := by
  constructor
  · intro hp a b hab
    have : convexHull ℝ {q | q ∈ vs} ⊆ {p | 0 ≤ s * cross a b p} := by
      apply convexHull_min _ (convex_halfplane a b s)
      intro q hq
      simp only [Set.mem_ofPred_eq] at hq ⊢
      by_cases h1 : q = a
      · rw [h1, cross_left, mul_zero]
      by_cases h2 : q = b
      · rw [h2, cross_right, mul_zero]
      exact (hs a b q hab hq h1 h2).le
    exact this hp
  · intro h
    obtain ⟨n, hlen⟩ : ∃ n, vs.length = n + 3 := ⟨vs.length - 3, by omega⟩
    -- vertices by index
    set v : ℕ → Pt := fun i => vs.getD i (0, 0) with hv
    have hget : ∀ i, i < vs.length → vs[i]? = some (v i) := by
      intro i hi
      simp [hv, List.getD, hi]
    have hmem : ∀ i, i < vs.length → v i ∈ vs := fun i hi => List.mem_of_getElem? (hget i hi)
    have hedge : ∀ i, i + 1 < vs.length → IsEdge vs (v i) (v (i + 1)) := by
      intro i hi
      exact ⟨i, hget i (by omega), by rw [Nat.mod_eq_of_lt hi]; exact hget _ hi⟩
    have hlast : IsEdge vs (v (n + 2)) (v 0) := by
      refine ⟨n + 2, hget _ (by omega), ?_⟩
      rw [show n + 2 + 1 = vs.length by omega, Nat.mod_self]
      exact hget _ (by omega)
    have hinj : ∀ i j, i < vs.length → j < vs.length → v i = v j → i = j := by
      intro i j hi hj hij
      exact (List.getElem?_inj hi hn).mp (by rw [hget i hi, hget j hj, hij])
    obtain ⟨k, hk1, hk2, hg1, hg2⟩ := sign_change (fun k => s * cross (v 0) (v k) p) n
      (h _ _ (hedge 0 (by omega)))
      (by
        have := h _ _ hlast
        rw [cross_swap] at this
        linarith)
    have hek := hedge k (by omega)
    refine mem_triangle (S := {q | q ∈ vs}) (a := v 0) (b := v k) (c := v (k + 1)) (s := s)
      (hmem _ (by omega)) (hmem _ (by omega)) (hmem _ (by omega)) ?_ hg1 (h _ _ hek) ?_
    · rw [← cross_cycle]
      exact hs _ _ _ hek (hmem _ (by omega)) (fun e => by
        have := hinj 0 k (by omega) (by omega) e
        omega) (fun e => by
        have := hinj 0 (k + 1) (by omega) (by omega) e
        omega)
    · rw [cross_swap]
      linarith

/-- A point of the filled polygon is on an edge iff it is on the line of that edge. -/
theorem mem_segment_iff {vs : List Pt} (h3 : 3 ≤ vs.length) (hn : vs.Nodup) {s : ℝ}
    (hs : ∀ a b q, IsEdge vs a b → q ∈ vs → q ≠ a → q ≠ b → 0 < s * cross a b q) {p a b : Pt}
    (hp : p ∈ region vs) (hab : IsEdge vs a b) : p ∈ segment ℝ a b ↔ cross a b p = 0 := by
  constructor
  · rintro ⟨u, v, hu, hv, huv, rfl⟩
    rw [cross_combo _ _ _ _ _ _ huv, cross_left, cross_right, mul_zero, mul_zero, add_zero]
  · intro h0
    rw [mem_region_iff h3 hn hs] at hp
    have hne := isEdge_ne h3 hn hab
    obtain ⟨c, hbc, hac⟩ := isEdge_next h3 hn hab
    obtain ⟨z, hza, hbz⟩ := isEdge_prev h3 hn hab
    have hbc' := isEdge_ne h3 hn hbc
    have hza' := isEdge_ne h3 hn hza
    -- p = a + t (b - a)
    obtain ⟨t, ht⟩ : ∃ t : ℝ, p = (1 - t) • a + t • b := by
      by_cases hx : b.1 - a.1 = 0
      · have hy : b.2 - a.2 ≠ 0 := by
          intro hy
          exact hne (Prod.ext (by linarith) (by linarith))
        refine ⟨(p.2 - a.2) / (b.2 - a.2), ?_⟩
        unfold cross at h0
        rw [hx, zero_mul, zero_sub, neg_eq_zero] at h0
        have hpx : p.1 - a.1 = 0 := (mul_eq_zero.mp h0).resolve_left hy
        ext
        · simp only [Prod.fst_add, Prod.smul_fst, smul_eq_mul]
          have hb : b.1 = a.1 := by linarith
          rw [hb]
          linarith
        · simp only [Prod.snd_add, Prod.smul_snd, smul_eq_mul]
          field_simp
          ring
      · refine ⟨(p.1 - a.1) / (b.1 - a.1), ?_⟩
        unfold cross at h0
        ext
        · simp only [Prod.fst_add, Prod.smul_fst, smul_eq_mul]
          field_simp
          ring
        · simp only [Prod.snd_add, Prod.smul_snd, smul_eq_mul]
          field_simp
          linear_combination h0
    have h1 := hp _ _ hbc
    have h2 := hp _ _ hza
    rw [ht, cross_combo _ _ _ _ _ _ (by ring)] at h1 h2
    rw [cross_left, mul_zero, add_zero] at h1
    rw [cross_right, mul_zero, zero_add] at h2
    have p1 := hs b c a hbc (isEdge_left_mem hab) hne hac
    have p2 := hs z a b hza (isEdge_right_mem hab) hbz hne.symm
    have t1 : 0 ≤ 1 - t := by
      by_contra hneg
      push Not at hneg
      have : s * ((1 - t) * cross b c a) = (1 - t) * (s * cross b c a) := by ring
      rw [this] at h1
      exact absurd h1 (not_le.mpr (mul_neg_of_neg_of_pos hneg p1))
    have t2 : 0 ≤ t := by
      by_contra hneg
      push Not at hneg
      have : s * (t * cross z a b) = t * (s * cross z a b) := by ring
      rw [this] at h2
      exact absurd h2 (not_le.mpr (mul_neg_of_neg_of_pos hneg p2))
    exact ⟨1 - t, t, t1, t2, by ring, ht.symm⟩

end Verif
