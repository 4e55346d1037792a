import Verif.Proofs.LatticeSearch
import Mathlib.LinearAlgebra.Matrix.Rank
import Mathlib.Tactic.NormNum
/-!
# C46-C50: construction, lookup, decomposition and scope of a `Lattice`
-/

namespace Verif.Latt

open Matrix

variable {n m k : ℕ}

/-! ### C46 -/

/-- **C46.** For every accepted lattice the reciprocal vectors are dual to the translation vectors,
lie in their span, and the translation vectors are linearly independent. -/
theorem C46_reciprocal_dual {prec : ℕ} {points : Fin n → Pt m} {vectors : Fin k → Pt m} {L : Lat n m k}
    (h : init prec points vectors = .ok L) :
    L.points = points ∧ L.vectors = vectors ∧
    (∀ i j, ∑ a, L.bs i a * L.vectors j a = if i = j then 2 * Real.pi else 0) ∧
    (∀ i, L.bs i ∈ Submodule.span ℝ (Set.range L.vectors)) ∧
    LinearIndependent ℝ L.vectors := by
  obtain ⟨_, _, h⟩ := init_ok_iff.1 h
  obtain ⟨h1, h2, _, ⟨C, hC⟩, h5, _⟩ := initSame_ok h
  rw [h1]
  refine ⟨h2, rfl, h5, fun i => ?_, ?_⟩
  · rw [Submodule.mem_span_range_iff_exists_fun]
    refine ⟨C i, ?_⟩
    funext a
    rw [hC, Finset.sum_apply]; rfl
  · rw [Fintype.linearIndependent_iff]
    intro g hg i
    have h6 : ∑ a, L.bs i a * (∑ j, g j • vectors j) a = 2 * Real.pi * g i := by
      have : ∀ a, L.bs i a * (∑ j, g j • vectors j) a = ∑ j, g j * (L.bs i a * vectors j a) := by
        intro a
        rw [Finset.sum_apply, Finset.mul_sum]
        exact Finset.sum_congr rfl fun j _ => by simp; ring
      rw [Finset.sum_congr rfl fun a _ => this a, Finset.sum_comm,
        Finset.sum_congr rfl fun j _ => by rw [← Finset.mul_sum, h5 i j]]
      simp [mul_comm]
    rw [hg] at h6
    simp at h6
    exact h6

/-- **C46 (acceptance).** A lattice is accepted exactly when the dimensions fit, the points and the
vectors are pairwise at least the tolerance apart, and the vectors are linearly independent. -/
theorem C46_accepted_iff (prec : ℕ) (points : Fin n → Pt m) (vectors : Fin k → Pt m) :
    (∃ L, init prec points vectors = .ok L) ↔
      m ≤ 3 ∧ k ≤ m ∧ (∀ i j, i < j → tol prec ≤ ndist (vectors i) (vectors j)) ∧
      (∀ i j, i < j → tol prec ≤ ndist (points i) (points j)) ∧ LinearIndependent ℝ vectors := by
  constructor
  · rintro ⟨L, h⟩
    have h0 := C46_reciprocal_dual h
    obtain ⟨a, b, h⟩ := init_ok_iff.1 h
    obtain ⟨h1, h2, h3, _⟩ := initSame_ok h
    refine ⟨a, b, ?_, fun i j hij => h3 i j hij.ne, ?_⟩
    · unfold initSame at h
      split_ifs at h with h4
      push Not at h4
      exact h4
    · rw [← h1]; exact h0.2.2.2.2
  · rintro ⟨h1, h2, h3, h4, h5⟩
    have hdet : IsUnit (Matrix.of vectors * (Matrix.of vectors)ᵀ).det := by
      rw [isUnit_iff_ne_zero]
      intro h0
      obtain ⟨x, hx, hx0⟩ := Matrix.exists_mulVec_eq_zero_iff.2 h0
      have h6 : (x ᵥ* Matrix.of vectors) ⬝ᵥ (x ᵥ* Matrix.of vectors) = 0 := by
        have := congrArg (fun y => x ⬝ᵥ y) hx0
        simp only [dotProduct_zero] at this
        rw [← Matrix.mulVec_mulVec, Matrix.dotProduct_mulVec, Matrix.mulVec_transpose] at this
        exact this
      rw [dotProduct_self_eq_zero] at h6
      refine hx ?_
      rw [Fintype.linearIndependent_iff] at h5
      funext i
      refine h5 x ?_ i
      funext a
      have := congrFun h6 a
      rw [Finset.sum_apply]
      simpa [Matrix.vecMul, dotProduct] using this
    have h6 : ∃ L, initSame prec points vectors = .ok L := by
      unfold initSame
      rw [if_neg (by push Not; exact h3), if_neg (by push Not; exact h4)]
      dsimp only
      rw [if_pos hdet]
      exact ⟨_, rfl⟩
    obtain ⟨L, hL⟩ := h6
    exact ⟨L, init_ok_iff.2 ⟨h1, h2, hL⟩⟩

/-- The square lattice, for the examples. -/
def sqPoints : Fin 1 → Pt 2 := fun _ => ![0, 0]
/-- Its translation vectors. -/
def sqVectors : Fin 2 → Pt 2 := ![![1, 0], ![0, 1]]

theorem ndist_two (p q : Pt 2) : ndist p q = Real.sqrt ((p 0 - q 0) ^ 2 + (p 1 - q 1) ^ 2) := by
  rw [ndist, Fin.sum_univ_two]

theorem le_ndist_two {p q : Pt 2} {r : ℝ} (hr : r ^ 2 ≤ (p 0 - q 0) ^ 2 + (p 1 - q 1) ^ 2) :
    r ≤ ndist p q := by
  rw [ndist_two]; exact Real.le_sqrt_of_sq_le hr

theorem sq_accepted : ∃ L, init 4 sqPoints sqVectors = .ok L := by
  rw [C46_accepted_iff]
  refine ⟨by norm_num, le_rfl, ?_, ?_, ?_⟩
  · intro i j hij
    have hi : i = 0 := by omega
    have hj : j = 1 := by omega
    subst hi; subst hj
    refine le_ndist_two ?_
    simp [sqVectors, tol]; norm_num
  · intro i j hij; omega
  · rw [Fintype.linearIndependent_iff]
    intro g hg i
    have h0 := congrFun hg 0
    have h1 := congrFun hg 1
    simp [sqVectors, Fin.sum_univ_two] at h0 h1
    fin_cases i
    · exact h0
    · exact h1

/-- Hypotheses of C46 are met by the square lattice. -/
example : ∃ L, init 4 sqPoints sqVectors = .ok L ∧
    ∀ i j, ∑ a, L.bs i a * L.vectors j a = if i = j then 2 * Real.pi else 0 := by
  obtain ⟨L, h⟩ := sq_accepted
  exact ⟨L, h, (C46_reciprocal_dual h).2.2.1⟩

/-! ### C47 -/

/-- **C47.** Looking up the coordinates of the i-th point gives back `i`, for every nearest-point
search. -/
theorem C47_getIndex_getSite {prec : ℕ} {points : Fin n → Pt m} {vectors : Fin k → Pt m}
    {L : Lat n m k} (h : init prec points vectors = .ok L)
    (near : (Fin n → Pt m) → Pt m → Option (Fin n)) (hnear : IsNearest near) (i : Fin n) :
    getSite L (i : ℤ) = .ok (points i) ∧ getIndex near prec L (points i) = .ok i := by
  obtain ⟨_, _, h⟩ := init_ok_iff.1 h
  obtain ⟨_, h2, h3, _⟩ := initSame_ok h
  constructor
  · unfold getSite
    rw [dif_pos ⟨by omega, by have := i.2; omega⟩, h2]; rfl
  · unfold getIndex
    rw [h2]
    rcases hnear points (points i) with ⟨_, h0⟩ | ⟨j, hj, hmin⟩
    · subst h0; exact i.elim0
    · rw [hj]
      dsimp only
      have hd : ndist (points j) (points i) < tol prec := by
        have := hmin i; rw [ndist_self] at this; linarith [tol_pos prec]
      have hji : j = i := by
        by_contra hne; linarith [h3 j i hne]
      rw [if_pos hd, hji]

/-- **C47.** What a lookup returns: an index is returned only for a site closer than the tolerance to
that point, which is then a nearest point; otherwise, exactly when every point is at least the
tolerance away, it is a KeyError.  `in_cluster` agrees.  Indices out of range are refused by
`getSite`. -/
theorem C47_getIndex_spec (prec : ℕ) (L : Lat n m k)
    (near : (Fin n → Pt m) → Pt m → Option (Fin n)) (hnear : IsNearest near) (site : Pt m) :
    (∀ i, getIndex near prec L site = .ok i → ndist (L.points i) site < tol prec ∧
      ∀ j, ndist (L.points i) site ≤ ndist (L.points j) site) ∧
    ((∃ i, ndist (L.points i) site < tol prec) → ∃ i, getIndex near prec L site = .ok i) ∧
    ((∀ i, tol prec ≤ ndist (L.points i) site) → getIndex near prec L site = .error .keyError) ∧
    (inCluster near prec L site = .ok true ↔ ∃ i, ndist (L.points i) site < tol prec) ∧
    (inCluster near prec L site = .ok false ↔ ∀ i, tol prec ≤ ndist (L.points i) site) ∧
    (∀ index : ℤ, index < 0 ∨ (n : ℤ) ≤ index → getSite L index = .error .assertionError) := by
  have hs : ∀ index : ℤ, index < 0 ∨ (n : ℤ) ≤ index → getSite L index = .error .assertionError := by
    intro index h
    unfold getSite
    rw [dif_neg (by omega)]
  unfold inCluster getIndex
  rcases hnear L.points site with ⟨h0, hn⟩ | ⟨j, hj, hmin⟩
  · subst hn
    rw [h0]
    refine ⟨by simp, ?_, by simp, ?_, ?_, hs⟩
    · rintro ⟨i, _⟩; exact i.elim0
    · simp
    · simp
  · rw [hj]
    dsimp only
    by_cases hd : ndist (L.points j) site < tol prec
    · rw [if_pos hd]
      refine ⟨?_, fun _ => ⟨j, rfl⟩, fun h => absurd hd (not_lt.2 (h j)), ?_, ?_, hs⟩
      · intro i hi; injection hi with hi; subst hi; exact ⟨hd, hmin⟩
      · simp only [true_iff]; exact ⟨j, hd⟩
      · simp only [Except.ok.injEq, Bool.true_eq_false, false_iff, not_forall, not_le]
        exact ⟨j, hd⟩
    · rw [if_neg hd]
      have hall : ∀ i, tol prec ≤ ndist (L.points i) site := fun i => (not_lt.1 hd).trans (hmin i)
      refine ⟨by simp, ?_, fun _ => rfl, ?_, ?_, hs⟩
      · rintro ⟨i, hi⟩; exact absurd hi (not_lt.2 (hall i))
      · simp only [Except.ok.injEq, Bool.false_eq_true, false_iff, not_exists, not_lt]; exact hall
      · simp only [true_iff]; exact hall

/-- A nearest-point search exists. -/
theorem exists_nearest (n m : ℕ) : ∃ near : (Fin n → Pt m) → Pt m → Option (Fin n), IsNearest near := by
  rcases Nat.eq_zero_or_pos n with h | h
  · exact ⟨fun _ _ => none, fun _ _ => Or.inl ⟨rfl, h⟩⟩
  · have : Nonempty (Fin n) := ⟨⟨0, h⟩⟩
    refine ⟨fun pts s => some (Classical.choose (Finite.exists_min fun i => ndist (pts i) s)),
      fun pts s => Or.inr ⟨_, rfl, Classical.choose_spec (Finite.exists_min fun i => ndist (pts i) s)⟩⟩

/-- Hypotheses of C47 are met: the square lattice, any nearest-point search. -/
example : ∃ L near, init 4 sqPoints sqVectors = .ok L ∧ IsNearest near ∧
    getIndex near 4 L ![0, 0] = .ok 0 := by
  obtain ⟨L, h⟩ := sq_accepted
  obtain ⟨near, hn⟩ := exists_nearest 1 2
  exact ⟨L, near, h, hn, (C47_getIndex_getSite h near hn 0).2⟩

/-! ### C48 -/

/-- **C48.** Whatever `decompose` returns is a decomposition: a cluster point, exactly complementing the
translation, which is within the tolerance of an integer combination of the vectors. -/
theorem C48_decompose_sound {prec : ℕ} {L : Lat n m k} {site p dR : Pt m}
    (h : decompose prec L site = some (.ok (p, dR))) :
    (∃ i, p = L.points i) ∧ p + dR = site ∧
      ∃ c : Fin k → ℤ, ndist dR (comb L.vectors c) < tol prec := by
  obtain ⟨i, h1, h2, h3⟩ := decompose_ok h
  exact ⟨⟨i, h1⟩, by rw [h1, h2]; abel, h3⟩

/-! ### C50 -/

/-- **C50 (termination).** For every accepted lattice with at least one point and one translation
vector and every reference distance the scope search ends; the scope it returns is the first one whose
outer edge keeps all copies of the cluster farther away than the reference. -/
theorem C50_guess_scope_terminates {prec : ℕ} {points : Fin n → Pt m} {vectors : Fin k → Pt m}
    {L : Lat n m k} (h : init prec points vectors = .ok L) (hk : 1 ≤ k) (hn : 1 ≤ n) (ref : ℝ) :
    ∃ s, guessScope L ref = some (.ok s) ∧ -1 ≤ s ∧
      (∀ c : Fin k → ℤ, OnShell c (s + 1) → ∀ i j,
        ref < ndist (points i + comb vectors c) (points j)) ∧
      ∀ s', -1 ≤ s' → s' < s → ∃ c : Fin k → ℤ, OnShell c (s' + 1) ∧ ∃ i j,
        ndist (points i + comb vectors c) (points j) ≤ ref := by
  obtain ⟨_, _, h⟩ := init_ok_iff.1 h
  obtain ⟨h1, h2, _, _, h5, _⟩ := initSame_ok h
  obtain ⟨s, hs⟩ := guessScope_terminates (L := L) (by rw [h1]; exact h5) (by omega) (by omega) ref
  obtain ⟨_, _, h6, h7, h8⟩ := guessScope_ok hs
  refine ⟨s, hs, h6, fun c hc i j => ?_, fun s' h9 h10 => ?_⟩
  · have := h7 c ((mem_edge s c).2 hc) i j
    rwa [h1, h2] at this
  · have := h8 s' h9 h10
    unfold edgeFar at this
    push Not at this
    obtain ⟨c, hc, i, j, hij⟩ := this
    rw [h1, h2] at hij
    exact ⟨c, (mem_edge s' c).1 hc, i, j, hij⟩

/-- **C50 (termination, all cases).** The scope search never diverges on an accepted lattice: without
translation vectors it is an IndexError, without points a ValueError. -/
theorem C50_guess_scope_always_ends {prec : ℕ} {points : Fin n → Pt m} {vectors : Fin k → Pt m}
    {L : Lat n m k} (h : init prec points vectors = .ok L) (ref : ℝ) :
    ∃ r, guessScope L ref = some r := by
  by_cases hk : k = 0
  · unfold guessScope; rw [if_pos hk]; exact ⟨_, rfl⟩
  · by_cases hn : n = 0
    · unfold guessScope; rw [if_neg hk, if_pos hn]; exact ⟨_, rfl⟩
    · obtain ⟨s, hs, _⟩ := C50_guess_scope_terminates h (by omega) (by omega) ref
      exact ⟨_, hs⟩

/-- Hypotheses of C50 are met by the square lattice. -/
example : ∃ L s, init 4 sqPoints sqVectors = .ok L ∧ guessScope L 5 = some (.ok s) := by
  obtain ⟨L, h⟩ := sq_accepted
  obtain ⟨s, hs, _⟩ := C50_guess_scope_terminates h (by norm_num) (by norm_num) 5
  exact ⟨L, s, h, hs⟩

/-- **C50 (half mesh).** The translations used by `bonds`: the origin first, then, without repetition,
exactly one of `c` and `-c` for every nonzero `c` of the box, and nothing else, whatever the iteration
order of the set. -/
theorem C50_half_mesh (order : List (Fin k → ℤ) → List (Fin k → ℤ))
    (horder : ∀ l, (order l).Perm l) (s : ℤ) :
    ∃ H, translations order s true = 0 :: H ∧ (0 :: H).Nodup ∧
      (∀ c ∈ H, ∀ i, |c i| ≤ s) ∧
      ∀ c : Fin k → ℤ, c ≠ 0 → (∀ i, |c i| ≤ s) → (c ∈ H ∧ -c ∉ H) ∨ (c ∉ H ∧ -c ∈ H) := by
  have inv := halfMesh_inv k s
  refine ⟨_, rfl, ?_, ?_, ?_⟩
  all_goals simp only [if_true]
  · rw [List.nodup_cons, (horder _).nodup_iff, (horder _).mem_iff]
    exact ⟨by simp, inv.nodup.filter _⟩
  · intro c hc
    rw [(horder _).mem_iff, List.mem_filter] at hc
    exact (mem_box s c).1 (inv.sub c hc.1)
  · intro c hc hb
    simp only [(horder _).mem_iff, List.mem_filter, decide_eq_true_iff, ne_eq, neg_eq_zero, hc,
      not_false_eq_true, and_true]
    rcases inv.cover c ((mem_box s c).2 hb) with h | h
    · exact Or.inl ⟨h, fun h' => hc (inv.anti c h h')⟩
    · exact Or.inr ⟨fun h' => hc (inv.anti c h' h), h⟩

/-- With inversion (as in `neighbor_distance`) every translation of the box occurs exactly once. -/
theorem C50_full_mesh (order : List (Fin k → ℤ) → List (Fin k → ℤ))
    (horder : ∀ l, (order l).Perm l) (s : ℤ) (hs : 0 ≤ s) :
    (translations order s false).Nodup ∧ (translations order s false).head? = some 0 ∧
      ∀ c : Fin k → ℤ, c ∈ translations order s false ↔ ∀ i, |c i| ≤ s := by
  unfold translations
  dsimp only
  refine ⟨?_, rfl, fun c => ?_⟩
  · rw [List.nodup_cons, (horder _).nodup_iff, (horder _).mem_iff]
    exact ⟨by simp, (List.nodup_dedup _).filter _⟩
  · rw [List.mem_cons, (horder _).mem_iff, List.mem_filter]
    simp only [Bool.false_eq_true, if_false, List.mem_dedup, mem_box, decide_eq_true_iff]
    constructor
    · rintro (h | h)
      · subst h; simpa using fun _ => hs
      · exact h.1
    · intro h
      by_cases h0 : c = 0
      · exact Or.inl h0
      · exact Or.inr ⟨h, h0⟩

/-- The half mesh of the square lattice with scope 1: four translations besides the origin. -/
example : (translations (k := 2) id 1 true).length = 5 := by decide

end Verif.Latt
