import Verif.Spec.Lattice
import Mathlib.Analysis.InnerProductSpace.PiL2
import Mathlib.Tactic.Linarith
/-!
Helper lemmas about distances, meshes and the scope search.
-/

namespace Verif.Latt

open Matrix

variable {n m k : ℕ}

theorem nnorm_eq (p : Pt m) : nnorm p = ‖(WithLp.toLp 2 p : EuclideanSpace ℝ (Fin m))‖ := by
  rw [EuclideanSpace.norm_eq]; simp [nnorm]

theorem ndist_eq (p q : Pt m) : ndist p q = nnorm (p - q) := rfl

theorem nnorm_nonneg (p : Pt m) : 0 ≤ nnorm p := Real.sqrt_nonneg _

theorem nnorm_zero : nnorm (0 : Pt m) = 0 := by simp [nnorm]

theorem nnorm_neg (p : Pt m) : nnorm (-p) = nnorm p := by simp [nnorm]

theorem nnorm_add (p q : Pt m) : nnorm (p + q) ≤ nnorm p + nnorm q := by
  simp only [nnorm_eq]; rw [WithLp.toLp_add]; exact norm_add_le _ _

theorem nnorm_sub_ge (p q : Pt m) : nnorm p - nnorm q ≤ nnorm (p + q) := by
  have := nnorm_add (p + q) (-q); rw [nnorm_neg, add_neg_cancel_right] at this; linarith

theorem ndist_comm (p q : Pt m) : ndist p q = ndist q p := by
  rw [ndist_eq, ndist_eq, ← nnorm_neg, neg_sub]

theorem ndist_self (p : Pt m) : ndist p p = 0 := by rw [ndist_eq, sub_self, nnorm_zero]

theorem ndist_triangle (p q r : Pt m) : ndist p r ≤ ndist p q + ndist q r := by
  rw [ndist_eq, ndist_eq, ndist_eq]
  have := nnorm_add (p - q) (q - r); rwa [sub_add_sub_cancel] at this

theorem nnorm_sq (p : Pt m) : nnorm p ^ 2 = ∑ a, p a ^ 2 := by
  rw [nnorm, Real.sq_sqrt (Finset.sum_nonneg fun a _ => sq_nonneg _)]

theorem abs_dot_le (p q : Pt m) : |∑ a, p a * q a| ≤ nnorm p * nnorm q := by
  have h := abs_real_inner_le_norm (WithLp.toLp 2 q : EuclideanSpace ℝ (Fin m)) (WithLp.toLp 2 p)
  rw [nnorm_eq, nnorm_eq, mul_comm]
  simpa [PiLp.inner_apply, mul_comm] using h

theorem tol_pos (prec : ℕ) : 0 < tol prec := by unfold tol; positivity

theorem comb_zero (v : Fin k → Pt m) : comb v 0 = 0 := by funext a; simp [comb]

theorem comb_neg (v : Fin k → Pt m) (c : Fin k → ℤ) : comb v (-c) = -comb v c := by
  funext a; simp [comb, Finset.sum_neg_distrib]

theorem comb_add (v : Fin k → Pt m) (c d : Fin k → ℤ) : comb v (c + d) = comb v c + comb v d := by
  funext a; simp [comb, add_mul, Finset.sum_add_distrib]

theorem comb_sub (v : Fin k → Pt m) (c d : Fin k → ℤ) : comb v (c - d) = comb v c - comb v d := by
  rw [sub_eq_add_neg, comb_add, comb_neg, ← sub_eq_add_neg]

theorem mem_pyRange (a b x : ℤ) : x ∈ pyRange a b ↔ a ≤ x ∧ x < b := by
  simp only [pyRange, List.mem_map, List.mem_range]
  constructor
  · rintro ⟨i, hi, rfl⟩; omega
  · rintro ⟨h1, h2⟩; exact ⟨(x - a).toNat, by omega, by omega⟩

theorem nodup_pyRange (a b : ℤ) : (pyRange a b).Nodup := by
  unfold pyRange
  refine List.nodup_range.map ?_
  intro i j h; simp at h; exact h

theorem mem_mesh (rng : List ℤ) (c : Fin k → ℤ) : c ∈ mesh rng k ↔ ∀ i, c i ∈ rng := by
  induction k with
  | zero => simp only [mesh, List.mem_singleton]
            exact ⟨fun _ i => i.elim0, fun _ => funext fun i => i.elim0⟩
  | succ k ih =>
    simp only [mesh, List.mem_flatMap, List.mem_map]
    constructor
    · rintro ⟨a, ha, d, hd, rfl⟩ i
      refine Fin.cases ?_ (fun i => ?_) i
      · simpa using ha
      · simpa using (ih d).1 hd i
    · intro h
      exact ⟨c 0, h 0, Fin.tail c, (ih _).2 fun i => h i.succ, Fin.cons_self_tail c⟩

theorem nodup_mesh (rng : List ℤ) (h : rng.Nodup) (k : ℕ) : (mesh rng k).Nodup := by
  induction k with
  | zero => simp [mesh]
  | succ k ih =>
    unfold mesh
    rw [List.nodup_flatMap]
    refine ⟨fun a _ => ih.map (Fin.cons_right_injective (α := fun _ => ℤ) a), ?_⟩
    refine h.imp ?_
    intro a b hab x hx hy
    simp only [List.mem_map] at hx hy
    obtain ⟨c, _, rfl⟩ := hx
    obtain ⟨d, _, hd⟩ := hy
    have := congrFun hd 0
    simp at this; exact hab this.symm

theorem mem_box (s : ℤ) (c : Fin k → ℤ) :
    c ∈ mesh (pyRange (-s) (s + 1)) k ↔ ∀ i, |c i| ≤ s := by
  rw [mem_mesh]
  refine forall_congr' fun i => ?_
  rw [mem_pyRange, abs_le]; omega

theorem mem_edge (s : ℤ) (c : Fin k → ℤ) : c ∈ edge k s ↔ OnShell c (s + 1) := by
  unfold edge OnShell
  rw [List.mem_filter]
  have h1 := mem_box (s + 1) c
  rw [show -(s + 1) = -s - 1 by ring, show s + 1 + 1 = s + 2 by ring] at h1
  rw [h1, decide_eq_true_iff, mem_box]
  push Not
  constructor
  · rintro ⟨h, i, hi⟩; exact ⟨h, i, le_antisymm (h i) hi⟩
  · rintro ⟨h, i, hi⟩; exact ⟨h, i, by omega⟩

theorem initSame_ok {prec : ℕ} {points : Fin n → Pt m} {vectors : Fin k → Pt m} {L : Lat n m k}
    (h : initSame prec points vectors = .ok L) :
    L.vectors = vectors ∧ L.points = points ∧
    (∀ i j, i ≠ j → tol prec ≤ ndist (points i) (points j)) ∧
    (∃ C : Matrix (Fin k) (Fin k) ℝ, ∀ i a, L.bs i a = ∑ j, C i j * vectors j a) ∧
    (∀ i j, ∑ a, L.bs i a * vectors j a = if i = j then 2 * Real.pi else 0) ∧
    L.allDist = distances prec (pdist (List.ofFn points)) := by
  unfold initSame at h
  dsimp only at h
  split_ifs at h with h1 h2 h3
  injection h with h
  subst h
  refine ⟨rfl, rfl, ?_, ⟨(2 * Real.pi) • (Matrix.of vectors * (Matrix.of vectors)ᵀ)⁻¹, ?_⟩, ?_, rfl⟩
  · intro i j hij
    push Not at h2
    rcases lt_or_gt_of_ne hij with h | h
    · exact h2 i j h
    · rw [ndist_comm]; exact h2 j i h
  · intro i a
    rw [← Matrix.smul_mul]
    exact Matrix.mul_apply
  · intro i j
    have e : ((2 * Real.pi) • ((Matrix.of vectors * (Matrix.of vectors)ᵀ)⁻¹ * Matrix.of vectors)) *
        (Matrix.of vectors)ᵀ = (2 * Real.pi) • (1 : Matrix (Fin k) (Fin k) ℝ) := by
      rw [Matrix.smul_mul, Matrix.mul_assoc, Matrix.nonsing_inv_mul _ h3]
    have := congrFun (congrFun e i) j
    rw [Matrix.mul_apply] at this
    simpa [Matrix.one_apply] using this

theorem init_ok_iff {prec : ℕ} {points : Fin n → Pt m} {vectors : Fin k → Pt m} {L : Lat n m k}  :
    init prec points vectors = .ok L ↔ m ≤ 3 ∧ k ≤ m ∧ initSame prec points vectors = .ok L := by
  unfold init
  rw [dif_pos rfl]
  split_ifs with h1 h2
  · simp; omega
  · simp; omega
  · constructor
    · intro h; exact ⟨by omega, by omega, h⟩
    · intro h; exact h.2.2

/-- `⟨b_i, c · vectors⟩ = 2 π c_i`. -/
theorem dot_comb {L : Lat n m k} {vectors : Fin k → Pt m}
    (h : ∀ i j, ∑ a, L.bs i a * vectors j a = if i = j then 2 * Real.pi else 0) (c : Fin k → ℤ)
    (i : Fin k) : ∑ a, L.bs i a * comb vectors c a = 2 * Real.pi * c i := by
  have : ∀ a, L.bs i a * comb vectors c a = ∑ j, (c j : ℝ) * (L.bs i a * vectors j a) := by
    intro a; rw [comb, Finset.mul_sum]; exact Finset.sum_congr rfl fun j _ => by ring
  rw [Finset.sum_congr rfl fun a _ => this a, Finset.sum_comm]
  rw [Finset.sum_congr rfl fun j _ => by rw [← Finset.mul_sum, h i j]]
  simp [mul_comm]

theorem coord_le {L : Lat n m k} {vectors : Fin k → Pt m}
    (h : ∀ i j, ∑ a, L.bs i a * vectors j a = if i = j then 2 * Real.pi else 0) (c : Fin k → ℤ)
    (i : Fin k) : 2 * Real.pi * |(c i : ℝ)| ≤ nnorm (L.bs i) * nnorm (comb vectors c) := by
  have := abs_dot_le (L.bs i) (comb vectors c)
  rwa [dot_comb h, abs_mul, abs_of_pos (by positivity)] at this

theorem guessLoop_some {L : Lat n m k} {ref : ℝ} : ∀ {fuel : ℕ} {s0 s : ℤ},
    guessLoop L ref fuel s0 = some s →
      s0 ≤ s ∧ edgeFar L ref s ∧ ∀ s', s0 ≤ s' → s' < s → ¬ edgeFar L ref s'
  | 0, s0, s, h => by simp [guessLoop] at h
  | fuel + 1, s0, s, h => by
    unfold guessLoop at h
    split_ifs at h with h1
    · injection h with h; subst h; exact ⟨le_rfl, h1, fun s' a b => absurd (lt_of_le_of_lt a b) (lt_irrefl _)⟩
    · obtain ⟨a, b, c⟩ := guessLoop_some h
      refine ⟨by omega, b, fun s' h2 h3 => ?_⟩
      rcases eq_or_lt_of_le h2 with h4 | h4
      · rw [← h4]; exact h1
      · exact c s' (by omega) h3

theorem guessLoop_of_far {L : Lat n m k} {ref : ℝ} : ∀ (d : ℕ) (s0 : ℤ), edgeFar L ref (s0 + d) →
    ∃ s, guessLoop L ref (d + 1) s0 = some s
  | 0, s0, h => by
    unfold guessLoop; rw [if_pos (by simpa using h)]; exact ⟨_, rfl⟩
  | d + 1, s0, h => by
    unfold guessLoop
    split_ifs with h1
    · exact ⟨_, rfl⟩
    · exact guessLoop_of_far d (s0 + 1) (by convert h using 1; push_cast; ring)

theorem guessScope_ok {L : Lat n m k} {ref : ℝ} {s : ℤ} (h : guessScope L ref = some (.ok s)) :
    k ≠ 0 ∧ n ≠ 0 ∧ -1 ≤ s ∧ edgeFar L ref s ∧ ∀ s', -1 ≤ s' → s' < s → ¬ edgeFar L ref s' := by
  unfold guessScope at h
  split_ifs at h with h1 h2 h3
  · simp at h
  · simp at h
  · simp only [Option.some.injEq, Except.ok.injEq] at h
    have := Classical.choose_spec (Classical.choose_spec h3)
    rw [h] at this
    obtain ⟨a, b, c⟩ := guessLoop_some this
    exact ⟨h1, h2, a, b, c⟩

/-- The edge of a large enough scope is far away. -/
theorem exists_far {L : Lat n m k}
    (h : ∀ i j, ∑ a, L.bs i a * L.vectors j a = if i = j then 2 * Real.pi else 0) (ref : ℝ) :
    ∃ d : ℕ, edgeFar L ref (-1 + d) := by
  set B := ∑ i, nnorm (L.bs i) with hB
  set D := ∑ i, ∑ j, nnorm (L.points i - L.points j) with hD
  have hB0 : 0 ≤ B := Finset.sum_nonneg fun i _ => nnorm_nonneg _
  obtain ⟨d, hd⟩ := exists_nat_gt ((ref + D) * B)
  refine ⟨d + 1, fun c hc i j => ?_⟩
  rw [mem_edge] at hc
  obtain ⟨_, q, hq⟩ := hc
  have h1 := coord_le h c q
  have h2 : |(c q : ℝ)| = d + 1 := by
    rw [← Int.cast_abs, hq]; push_cast; ring
  have h3 : nnorm (L.bs q) ≤ B := Finset.single_le_sum (f := fun i => nnorm (L.bs i))
    (fun i _ => nnorm_nonneg _) (Finset.mem_univ q)
  have h4 : nnorm (L.points i - L.points j) ≤ D := by
    refine le_trans ?_ (Finset.single_le_sum (f := fun i => ∑ j, nnorm (L.points i - L.points j))
      (fun i _ => Finset.sum_nonneg fun j _ => nnorm_nonneg _) (Finset.mem_univ i))
    exact Finset.single_le_sum (f := fun j => nnorm (L.points i - L.points j))
      (fun j _ => nnorm_nonneg _) (Finset.mem_univ j)
  have h5 : nnorm (comb L.vectors c) - D ≤ ndist (L.points i + comb L.vectors c) (L.points j) := by
    have := nnorm_sub_ge (comb L.vectors c) (L.points i - L.points j)
    rw [ndist_eq, show L.points i + comb L.vectors c - L.points j =
      comb L.vectors c + (L.points i - L.points j) by abel]
    linarith
  rw [h2] at h1
  have h6 : nnorm (L.bs q) * nnorm (comb L.vectors c) ≤ B * nnorm (comb L.vectors c) :=
    mul_le_mul_of_nonneg_right h3 (nnorm_nonneg _)
  have h7 : (d : ℝ) < B * nnorm (comb L.vectors c) := by
    have : 3 < Real.pi := Real.pi_gt_three
    nlinarith [(Nat.cast_nonneg d : (0 : ℝ) ≤ d)]
  have h8 : ref + D < nnorm (comb L.vectors c) := by
    by_contra hcon
    push Not at hcon
    have : B * nnorm (comb L.vectors c) ≤ B * (ref + D) := mul_le_mul_of_nonneg_left hcon hB0
    linarith
  linarith

theorem guessScope_terminates {L : Lat n m k}
    (h : ∀ i j, ∑ a, L.bs i a * L.vectors j a = if i = j then 2 * Real.pi else 0) (hk : k ≠ 0)
    (hn : n ≠ 0) (ref : ℝ) : ∃ s, guessScope L ref = some (.ok s) := by
  obtain ⟨d, hd⟩ := exists_far h ref
  obtain ⟨s, hs⟩ := guessLoop_of_far d (-1) hd
  unfold guessScope
  rw [if_neg hk, if_neg hn, dif_pos ⟨_, _, hs⟩]
  exact ⟨_, rfl⟩

end Verif.Latt
