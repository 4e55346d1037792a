import Verif.Props.LatticeDistance
import Mathlib.Data.Set.Card
/-!
# C52: the violation, and the case in which `neighbor_distance` is exact
-/

namespace Verif.Latt

variable {n m k : ℕ}

theorem pdist_of_mem {l : List (Pt m)} {a b : ℕ} {p q : Pt m} (hab : a ≠ b) (ha : l[a]? = some p)
    (hb : l[b]? = some q) : ndist p q ∈ pdist l := by
  rcases lt_or_gt_of_ne hab with h | h
  · exact mem_pdist.2 ⟨a, b, p, q, h, ha, hb, rfl⟩
  · exact mem_pdist.2 ⟨b, a, q, p, h, hb, ha, ndist_comm _ _⟩

theorem pdist_copies {points : Fin n → Pt m} {v : Fin k → Pt m} {T : List (Fin k → ℤ)}
    {c d : Fin k → ℤ} (hc : c ∈ T) (hd : d ∈ T) {i j : Fin n} (h : c ≠ d ∨ i ≠ j) :
    ndist (comb v c + points i) (comb v d + points j) ∈ pdist (copies points v T) := by
  obtain ⟨s, hs, rfl⟩ := List.mem_iff_getElem.1 hc
  obtain ⟨t, ht, rfl⟩ := List.mem_iff_getElem.1 hd
  by_cases hst : s = t
  · subst hst
    have hij : i ≠ j := h.resolve_left (fun h => h rfl)
    refine pdist_of_mem ?_ (copies_get points v T s hs i) (copies_get points v T s hs j)
    intro h; exact hij (Fin.ext (by omega))
  · refine pdist_of_mem ?_ (copies_get points v T s hs i) (copies_get points v T t ht j)
    intro h
    have hn : 0 < n := by have := i.2; omega
    have h1 := congrArg (· / n) h
    simp only [Nat.mul_comm _ n, Nat.mul_add_div hn, Nat.div_eq_of_lt i.2, Nat.div_eq_of_lt j.2] at h1
    omega

theorem fresh_eq {order : List (Fin k → ℤ) → List (Fin k → ℤ)} {prec : ℕ} {L : Lat n m k} {nth : ℤ}
    (h0 : 0 ≤ nth) (h : L.allDist[nth.toNat]? = none) :
    (neighborDistance order prec L nth).1.allDist = distances prec (pdist (copies L.points L.vectors
      (translations order nth false))) := by
  unfold neighborDistance
  rw [if_neg (by omega), h]
  dsimp only
  split <;> rfl

/-! ### The violation -/

/-- Two points on a line. -/
noncomputable def linePoints : Fin 2 → Pt 1 := ![![0], ![1]]
/-- The period of the chain. -/
noncomputable def lineVectors : Fin 1 → Pt 1 := ![![3 / 2]]

theorem ndist_one (p q : Pt 1) : ndist p q = |p 0 - q 0| := by
  rw [ndist, Fin.sum_univ_one, Real.sqrt_sq_eq_abs]

theorem line_accepted : ∃ L, init 4 linePoints lineVectors = .ok L := by
  rw [C46_accepted_iff]
  refine ⟨by norm_num, le_rfl, fun i j hij => by omega, ?_, ?_⟩
  · intro i j hij
    have hi : i = 0 := by omega
    have hj : j = 1 := by omega
    subst hi; subst hj
    rw [ndist_one]
    simp [linePoints, tol]; norm_num
  · rw [Fintype.linearIndependent_iff]
    intro g hg i
    have h0 := congrFun hg 0
    simp [lineVectors] at h0
    rw [Subsingleton.elim i 0]; exact h0

/-- **C52 is violated.** The chain with points 0 and 1 and period 1.5 has neighbouring sites 1 and 1.5 at
distance 0.5, but `neighbor_distance(1)` of the fresh lattice is 1 (only the cluster is looked at), and
after a call of `neighbor_distance(2)` the same `neighbor_distance(1)` is at most 0.5. -/
theorem C52_violated (order : List (Fin 1 → ℤ) → List (Fin 1 → ℤ))
    (horder : ∀ l, (order l).Perm l) :
    ∃ L, init 4 linePoints lineVectors = .ok L ∧
      ndist (linePoints 1) (linePoints 0 + comb lineVectors ![1]) = 1 / 2 ∧
      (neighborDistance order 4 L 1).2 = .ok 1 ∧
      ∃ d, (neighborDistance order 4 (neighborDistance order 4 L 2).1 1).2 = .ok d ∧ d ≤ 1 / 2 := by
  obtain ⟨L, hL⟩ := line_accepted
  have hdist : ndist (linePoints 1) (linePoints 0 + comb lineVectors ![1]) = 1 / 2 := by
    rw [ndist_one]; simp [linePoints, lineVectors, comb]; rw [abs_of_nonpos] <;> norm_num
  obtain ⟨h1, h2, _⟩ := C46_reciprocal_dual hL
  have hcache : L.allDist = [0, 1] := by
    obtain ⟨_, _, h⟩ := init_ok_iff.1 hL
    obtain ⟨_, _, _, _, _, h6⟩ := initSame_ok h
    rw [h6]
    have : pdist (List.ofFn linePoints) = [((1 : ℤ) : ℝ)] := by
      simp [List.ofFn_succ, pdist, ndist_one, linePoints]
    rw [this, distances_eq]
    have hz : zs 4 [((1 : ℤ) : ℝ)] = [10000] := by
      unfold zs
      have : rint (((1 : ℤ) : ℝ) * 10 ^ 4) = 10000 := by
        rw [show ((1 : ℤ) : ℝ) * 10 ^ 4 = ((10000 : ℤ) : ℝ) by norm_num, rint_intCast]
      simp only [List.map_cons, List.map_nil, this]
      simp
    rw [hz]; simp; norm_num
  refine ⟨L, hL, hdist, ?_, ?_⟩
  · unfold neighborDistance
    rw [if_neg (by norm_num), hcache]
    rfl
  · set L2 := (neighborDistance order 4 L 2).1 with hL2
    have hc2 : L2.allDist = distances 4 (pdist (copies L.points L.vectors
        (translations order 2 false))) := by
      rw [hL2]; exact fresh_eq (by norm_num) (by rw [hcache]; rfl)
    obtain ⟨_, _, hT⟩ := C50_full_mesh order horder 2 (by norm_num)
    have hmem : (5000 : ℤ) ∈ zs 4 (pdist (copies L.points L.vectors (translations order 2 false))) := by
      refine mem_zs.2 ⟨_, pdist_copies (c := 0) (d := ![1]) (i := 1) (j := 0) ?_ ?_ (Or.inr ?_), ?_⟩
      · rw [hT]; intro i; simp
      · rw [hT]; intro i; simp
      · exact one_ne_zero
      · rw [h1, h2, comb_zero, zero_add, add_comm, hdist,
          show (1 / 2 : ℝ) * 10 ^ 4 = ((5000 : ℤ) : ℝ) by norm_num, rint_intCast]
    have hsort := zs_sorted 4 (pdist (copies L.points L.vectors (translations order 2 false)))
    rw [distances_eq] at hc2
    rcases hz : zs 4 (pdist (copies L.points L.vectors (translations order 2 false))) with _ | ⟨z, l⟩
    · rw [hz] at hmem; simp at hmem
    · rw [hz] at hc2 hmem hsort
      refine ⟨(z : ℝ) / 10 ^ 4, ?_, ?_⟩
      · unfold neighborDistance
        rw [if_neg (by norm_num), hc2]
        rfl
      · have : z ≤ 5000 := by
          rcases List.mem_cons.1 hmem with h | h
          · exact h.ge
          · exact ((List.pairwise_cons.1 hsort).1 _ h).le
        have : (z : ℝ) ≤ 5000 := by exact_mod_cast this
        linarith

/-! ### One point per cell -/

/-- The translations are not too oblique, measured against the q-th vector: a translation with a
component `c_i` is at least two thirds of `|c_i|` times as long as that vector. -/
def NotOblique (v : Fin k → Pt m) (q : Fin k) : Prop :=
  ∀ (c : Fin k → ℤ) i, 2 * |(c i : ℝ)| * nnorm (v q) ≤ 3 * nnorm (comb v c)

theorem rounded_single {prec : ℕ} {points : Fin 1 → Pt m} {vectors : Fin k → Pt m} {z : ℤ} :
    RoundedDist prec points vectors z ↔
      ∃ c, c ≠ 0 ∧ z = rint (nnorm (comb vectors c) * 10 ^ prec) := by
  have key : ∀ (i j : Fin 1) c, ndist (points i) (points j + comb vectors c) =
      nnorm (comb vectors c) := by
    intro i j c
    rw [Subsingleton.elim j i, ndist_eq, ← nnorm_neg]; congr 1; abel
  constructor
  · rintro ⟨i, j, c, hc, rfl⟩
    exact ⟨c, hc.resolve_right (fun h => h (Subsingleton.elim _ _)), by rw [key]⟩
  · rintro ⟨c, hc, rfl⟩
    exact ⟨0, 0, c, Or.inl hc, by rw [key]⟩

theorem comb_single (v : Fin k → Pt m) (q : Fin k) (j : ℤ) :
    nnorm (comb v (Pi.single q j)) = |(j : ℝ)| * nnorm (v q) := by
  have : comb v (Pi.single q j) = fun a => (j : ℝ) * v q a := by
    funext a
    unfold comb
    rw [Finset.sum_eq_single q]
    · simp
    · intro i _ hi; simp [hi]
    · simp
  rw [this]
  unfold nnorm
  simp only [mul_pow]
  rw [← Finset.mul_sum, Real.sqrt_mul (sq_nonneg _), Real.sqrt_sq_eq_abs]

/-- **C52 (one point per cell, first call).** For a cluster of one point and vectors that are not too
oblique the first call `neighbor_distance(nth)` returns the n-th smallest rounded distance of the
infinite lattice: it is one, and exactly `nth` of them are not larger. -/
theorem C52_single_point_fresh_partial (order : List (Fin k → ℤ) → List (Fin k → ℤ))
    (horder : ∀ l, (order l).Perm l) {prec : ℕ} {points : Fin 1 → Pt m} {vectors : Fin k → Pt m}
    {L : Lat 1 m k} (h : init prec points vectors = .ok L) (q : Fin k)
    (hq : tol prec < nnorm (vectors q)) (hv : NotOblique vectors q) (nth : ℤ) (hnth : 1 ≤ nth) :
    ∃ z : ℤ, (neighborDistance order prec L nth).2 = .ok (z / 10 ^ prec) ∧
      RoundedDist prec points vectors z ∧
      ({y | RoundedDist prec points vectors y ∧ y ≤ z}.ncard : ℤ) = nth := by
  obtain ⟨h1, h2, _⟩ := C46_reciprocal_dual h
  have hcache : L.allDist = [0] := by
    obtain ⟨_, _, h'⟩ := init_ok_iff.1 h
    obtain ⟨_, _, _, _, _, h6⟩ := initSame_ok h'
    rw [h6]
    simp [List.ofFn_succ, pdist, distances]
  have hnone : L.allDist[nth.toNat]? = none := by rw [hcache]; simp; omega
  have hfresh := fresh_eq (order := order) (prec := prec) (by omega) hnone
  rw [h1, h2, distances_eq] at hfresh
  obtain ⟨hTn, _, hT⟩ := C50_full_mesh order horder nth (by omega)
  set T := translations order nth false with hTdef
  set l := zs prec (pdist (copies points vectors T)) with hl
  have hsort : l.Pairwise (· < ·) := zs_sorted prec _
  set Z : ℝ := 10 ^ prec with hZ
  have hZ0 : 0 < Z := by positivity
  have haZ : 1 < nnorm (vectors q) * Z := by
    unfold tol at hq
    rw [div_lt_iff₀ (by positivity)] at hq; exact hq
  -- the distances of the box
  have hmem : ∀ c : Fin k → ℤ, c ≠ 0 → (∀ i, |c i| ≤ 2 * nth) →
      rint (nnorm (comb vectors c) * Z) ∈ l := by
    intro c hc hb
    refine mem_zs.2 ⟨_, pdist_copies (points := points) (v := vectors)
      (c := fun i => c i / 2) (d := fun i => c i / 2 - c i) (i := 0) (j := 0) ?_ ?_ (Or.inl ?_), ?_⟩
    · rw [hT]; intro i; have := abs_le.1 (hb i); rw [abs_le]; constructor <;> omega
    · rw [hT]; intro i; have := abs_le.1 (hb i); rw [abs_le]; constructor <;> omega
    · intro h0; apply hc; funext i; have := congrFun h0 i; simp at this ⊢; omega
    · congr 2
      rw [ndist_eq, add_sub_add_right_eq_sub, ← comb_sub]
      congr 2
      funext i; simp
  have hround : ∀ z ∈ l, RoundedDist prec points vectors z := by
    intro z hz
    obtain ⟨d, hd, rfl⟩ := mem_zs.1 hz
    exact rounded_of_copies hTn hd
  -- the multiples of the q-th vector
  let R : ℕ → ℤ := fun j => rint (j * (nnorm (vectors q) * Z))
  have hRmono : StrictMono R := by
    refine strictMono_nat_of_lt_succ fun j => rint_lt ?_
    push_cast; linarith
  have hRmem : ∀ j : ℕ, 1 ≤ j → (j : ℤ) ≤ nth → R j ∈ l := by
    intro j hj1 hj2
    have := hmem (Pi.single q (j : ℤ)) (by
      intro h0; have := congrFun h0 q; simp at this; omega) (by
      intro i
      by_cases hi : i = q
      · subst hi; simp; omega
      · simp [hi]; omega)
    rw [comb_single] at this
    convert this using 2
    push_cast
    rw [abs_of_nonneg (by positivity)]; ring
  obtain ⟨N, hN⟩ : ∃ N : ℕ, nth = N + 1 := ⟨(nth - 1).toNat, by omega⟩
  -- at least nth of them are at most R nth
  have hsub : ((Finset.range (N + 1)).image fun j => R (j + 1)) ⊆
      l.toFinset.filter (· ≤ R (N + 1)) := by
    intro y hy
    obtain ⟨j, hj, rfl⟩ := Finset.mem_image.1 hy
    rw [Finset.mem_range] at hj
    rw [Finset.mem_filter, List.mem_toFinset]
    exact ⟨hRmem (j + 1) (by omega) (by omega), hRmono.monotone (by omega)⟩
  have hcard : N + 1 ≤ (l.toFinset.filter (· ≤ R (N + 1))).card := by
    refine le_trans ?_ (Finset.card_le_card hsub)
    rw [Finset.card_image_of_injective _ (fun a b h => by have := hRmono.injective h; omega)]
    simp
  have hnd : l.Nodup := hsort.imp fun h => ne_of_lt h
  have hlen : N < l.length := by
    have := (hcard.trans (Finset.card_filter_le _ _)).trans (List.toFinset_card_le l); omega
  have hle : l[N] ≤ R (N + 1) := by
    by_contra hcon
    push Not at hcon
    have hsub2 : l.toFinset.filter (· ≤ R (N + 1)) ⊆ (l.take N).toFinset := by
      intro y hy
      rw [Finset.mem_filter, List.mem_toFinset] at hy
      obtain ⟨p, hp, rfl⟩ := List.mem_iff_getElem.1 hy.1
      rw [List.mem_toFinset, List.mem_take_iff_getElem]
      refine ⟨p, ?_, rfl⟩
      by_contra hpN
      have hpN' : N ≤ p := by omega
      rcases Nat.lt_or_ge N p with h3 | h3
      · have := List.pairwise_iff_getElem.1 hsort N p hlen hp h3; omega
      · have : p = N := by omega
        subst this; omega
    have := hcard.trans ((Finset.card_le_card hsub2).trans (List.toFinset_card_le _))
    rw [List.length_take] at this
    omega
  refine ⟨l[N], ?_, hround _ (List.getElem_mem hlen), ?_⟩
  · unfold neighborDistance
    rw [if_neg (by omega), hnone]
    dsimp only
    have hd : distances prec (pdist (sitesFactory order L nth false)) =
        0 :: l.map fun z : ℤ => (z : ℝ) / 10 ^ prec := by
      rw [distances_eq, hl]
      have : sitesFactory order L nth false = copies points vectors T := by
        unfold sitesFactory copies; rw [h1, h2]
      rw [this]
    rw [hd]
    have : nth.toNat = N + 1 := by omega
    rw [this, List.getElem?_cons_succ, List.getElem?_map, List.getElem?_eq_getElem hlen]
    rfl
  · have hset : {y | RoundedDist prec points vectors y ∧ y ≤ l[N]} = ↑(l.take (N + 1)).toFinset := by
      ext y
      rw [Finset.mem_coe, List.mem_toFinset, List.mem_take_iff_getElem]
      constructor
      · rintro ⟨hy, hyl⟩
        obtain ⟨c, hc, rfl⟩ := rounded_single.1 hy
        have hbox : ∀ i, |c i| ≤ 2 * nth := by
          by_contra hcon
          push Not at hcon
          obtain ⟨i, hi⟩ := hcon
          have h3 : (2 * (nth : ℝ) + 1) ≤ |(c i : ℝ)| := by
            have : 2 * nth + 1 ≤ |c i| := by omega
            exact_mod_cast this
          have h4 := hv c i
          have h5 : R (N + 1) < rint (nnorm (comb vectors c) * 10 ^ prec) := by
            refine rint_lt ?_
            rw [← hZ]
            have h6 : ((N + 1 : ℕ) : ℝ) = nth := by rw [hN]; push_cast; ring
            rw [h6]
            have h7 : (1 : ℝ) ≤ nth := by exact_mod_cast hnth
            have ha0 : 0 < nnorm (vectors q) := lt_trans (tol_pos prec) hq
            have h8 : (nth + 1) * nnorm (vectors q) ≤ nnorm (comb vectors c) := by
              have h9 : 2 * (2 * (nth : ℝ) + 1) * nnorm (vectors q) ≤
                  2 * |(c i : ℝ)| * nnorm (vectors q) :=
                mul_le_mul_of_nonneg_right (by linarith) ha0.le
              nlinarith
            have h9 := mul_le_mul_of_nonneg_right h8 hZ0.le
            linarith
          omega
        obtain ⟨p, hp, hpe⟩ := List.mem_iff_getElem.1 (hmem c hc hbox)
        rw [← hpe] at hyl ⊢
        refine ⟨p, ?_, rfl⟩
        by_contra hpN
        have := List.pairwise_iff_getElem.1 hsort N p hlen hp (by omega)
        omega
      · rintro ⟨p, hp, rfl⟩
        refine ⟨hround _ (List.getElem_mem _), ?_⟩
        rcases Nat.lt_or_ge p N with h3 | h3
        · exact (List.pairwise_iff_getElem.1 hsort p N (by omega) hlen h3).le
        · have : p = N := by omega
          subst this; exact le_rfl
    rw [hset, Set.ncard_coe_finset, List.toFinset_card_of_nodup
      (hnd.sublist (List.take_sublist _ _)), List.length_take, Nat.min_eq_left (by omega), hN]
    push_cast; ring

theorem notOblique_of_wideAngle {v : Fin 2 → Pt m} (hv : WideAngle v)
    (h0 : 0 < gram v 0 0) (h1 : 0 < gram v 1 1) (q : Fin 2)
    (hq : ∀ i, gram v q q ≤ gram v i i) : NotOblique v q := by
  intro c i
  have hqn : nnorm (v q) ^ 2 = gram v q q := by
    rw [nnorm_sq, gram]; exact Finset.sum_congr rfl fun a _ => sq _
  have hcn : nnorm (comb v c) ^ 2 =
      gram v 0 0 * c 0 ^ 2 + 2 * gram v 0 1 * (c 0 * c 1) + gram v 1 1 * c 1 ^ 2 := by
    rw [nnorm_sq, comb_two]
  unfold WideAngle at hv
  refine abs_le_of_sq_le_sq' ?_ (by have := nnorm_nonneg (comb v c); linarith) |>.2
  rw [mul_pow, mul_pow, mul_pow, sq_abs, hqn, hcn]
  have hq0 := hq 0
  have hq1 := hq 1
  have hqq : 0 ≤ gram v q q := gram_self_nonneg v q
  set A := gram v 0 0
  set B := gram v 1 1
  set g := gram v 0 1
  set x : ℝ := (c 0 : ℝ)
  set y : ℝ := (c 1 : ℝ)
  -- three quarters of each square
  have k0 : 3 * A * x ^ 2 ≤ 4 * (A * x ^ 2 + 2 * g * (x * y) + B * y ^ 2) := by
    have e : 4 * B * (A * x ^ 2 + 2 * g * (x * y) + B * y ^ 2) - B * (3 * A * x ^ 2) =
        4 * (B * y + g * x) ^ 2 + (A * B - 4 * g ^ 2) * x ^ 2 := by ring
    have e2 : 0 ≤ 4 * (B * y + g * x) ^ 2 + (A * B - 4 * g ^ 2) * x ^ 2 :=
      add_nonneg (by positivity) (mul_nonneg (by linarith) (sq_nonneg x))
    by_contra hcon
    push Not at hcon
    have := mul_lt_mul_of_pos_left hcon h1
    linarith
  have k1 : 3 * B * y ^ 2 ≤ 4 * (A * x ^ 2 + 2 * g * (x * y) + B * y ^ 2) := by
    have e : 4 * A * (A * x ^ 2 + 2 * g * (x * y) + B * y ^ 2) - A * (3 * B * y ^ 2) =
        4 * (A * x + g * y) ^ 2 + (A * B - 4 * g ^ 2) * y ^ 2 := by ring
    have e2 : 0 ≤ 4 * (A * x + g * y) ^ 2 + (A * B - 4 * g ^ 2) * y ^ 2 :=
      add_nonneg (by positivity) (mul_nonneg (by linarith) (sq_nonneg y))
    by_contra hcon
    push Not at hcon
    have := mul_lt_mul_of_pos_left hcon h0
    linarith
  fin_cases i
  · show 2 ^ 2 * x ^ 2 * gram v q q ≤ 3 ^ 2 * _
    nlinarith [mul_le_mul_of_nonneg_right hq0 (sq_nonneg x), mul_nonneg h0.le (sq_nonneg x)]
  · show 2 ^ 2 * y ^ 2 * gram v q q ≤ 3 ^ 2 * _
    nlinarith [mul_le_mul_of_nonneg_right hq1 (sq_nonneg y), mul_nonneg h1.le (sq_nonneg y)]

/-- Orthogonal vectors, measured against a shortest one. -/
theorem notOblique_of_orthogonal {v : Fin k → Pt m} (hv : ∀ i j, i ≠ j → gram v i j = 0) (q : Fin k)
    (hq : ∀ i, gram v q q ≤ gram v i i) : NotOblique v q := by
  intro c i
  have hqn : nnorm (v q) ^ 2 = gram v q q := by
    rw [nnorm_sq, gram]; exact Finset.sum_congr rfl fun a _ => sq _
  have hcn : nnorm (comb v c) ^ 2 = ∑ j, gram v j j * (c j : ℝ) ^ 2 := by
    rw [nnorm_sq, Finset.sum_congr rfl fun a _ => sq (comb v c a), sum_comb_mul]
    refine Finset.sum_congr rfl fun j _ => ?_
    rw [Finset.sum_eq_single j]
    · ring
    · intro l _ hl; rw [hv j l (Ne.symm hl), zero_mul]
    · simp
  have h1 : gram v i i * (c i : ℝ) ^ 2 ≤ ∑ j, gram v j j * (c j : ℝ) ^ 2 :=
    Finset.single_le_sum (f := fun j => gram v j j * (c j : ℝ) ^ 2)
      (fun j _ => mul_nonneg (gram_self_nonneg v j) (sq_nonneg _)) (Finset.mem_univ i)
  refine abs_le_of_sq_le_sq' ?_ (by have := nnorm_nonneg (comb v c); linarith) |>.2
  rw [mul_pow, mul_pow, mul_pow, sq_abs, hqn, hcn]
  have h2 := mul_le_mul_of_nonneg_right (hq i) (sq_nonneg (c i : ℝ))
  have h3 := mul_nonneg (gram_self_nonneg v q) (sq_nonneg (c i : ℝ))
  nlinarith

/-- The square lattice meets the hypotheses: its n-th neighbour distance is exact on the first call. -/
example (nth : ℤ) (hnth : 1 ≤ nth) : ∃ L, init 4 sqPoints sqVectors = .ok L ∧
    ∃ z : ℤ, (neighborDistance id 4 L nth).2 = .ok (z / 10 ^ 4) ∧
      ({y | RoundedDist 4 sqPoints sqVectors y ∧ y ≤ z}.ncard : ℤ) = nth := by
  obtain ⟨L, h⟩ := sq_accepted
  have g01 : ∀ i j, i ≠ j → gram sqVectors i j = 0 := by
    intro i j hij
    fin_cases i <;> fin_cases j <;> simp [gram, sqVectors, Fin.sum_univ_two] at hij ⊢
  have gii : ∀ i, gram sqVectors i i = 1 := by
    intro i; fin_cases i <;> simp [gram, sqVectors, Fin.sum_univ_two]
  obtain ⟨z, h1, _, h3⟩ := C52_single_point_fresh_partial id (fun l => List.Perm.refl l) h 0
    (by simp [nnorm, sqVectors, tol, Fin.sum_univ_two]; norm_num)
    (notOblique_of_orthogonal g01 0 fun i => by rw [gii, gii]) nth hnth
  exact ⟨L, h, z, h1, h3⟩

end Verif.Latt
