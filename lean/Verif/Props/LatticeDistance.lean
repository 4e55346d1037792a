import Verif.Proofs.LatticeDistances
import Verif.Props.LatticeBonds
/-!
# C52: `neighbor_distance`

The property "the n-th distinct distance of the infinite lattice, whatever was called before" is false
(`C52_violated`).  What holds is proved here: every answer is the rounded distance of two different
sites and is not smaller than the true n-th distance, after any history; and for a cluster of one point
whose vectors are not too oblique the first call is exact.  A concrete case: `Props/LatticeBondsExamples.lean`.
-/

namespace Verif.Latt

variable {n m k : ℕ}

/-- The state after a call. -/
noncomputable def after (order : List (Fin k → ℤ) → List (Fin k → ℤ))
    (porder : ∀ N : ℕ, List (Fin N × Fin N) → List (Fin N × Fin N)) (prec : ℕ) (L : Lat n m k) :
    Call → Lat n m k
  | .neighborDistance nth => (neighborDistance order prec L nth).1
  | .bonds nth only fold =>
    match bonds order porder prec L nth only fold with
    | some (L', _) => L'
    | none => L

/-- What every state satisfies. -/
structure DistInv (prec : ℕ) (points : Fin n → Pt m) (vectors : Fin k → Pt m) (L : Lat n m k) :
    Prop where
  points_eq : L.points = points
  vectors_eq : L.vectors = vectors
  cache : ∃ l : List ℤ, L.allDist = 0 :: (l.map fun z : ℤ => (z : ℝ) / 10 ^ prec) ∧
    l.Pairwise (· < ·) ∧ ∀ z ∈ l, RoundedDist prec points vectors z

theorem ndist_translate (p q r : Pt m) : ndist (r + p) (r + q) = ndist p q := by
  rw [ndist_eq, ndist_eq]; congr 1; abel

theorem rounded_of_copies {prec : ℕ} {points : Fin n → Pt m} {vectors : Fin k → Pt m}
    {T : List (Fin k → ℤ)} (hT : T.Nodup) {x : ℝ} (hx : x ∈ pdist (copies points vectors T)) :
    RoundedDist prec points vectors (rint (x * 10 ^ prec)) := by
  obtain ⟨a, b, p, q, hab, ha, hb, rfl⟩ := mem_pdist.1 hx
  obtain ⟨s, hs, i, rfl, rfl⟩ := copies_index points vectors T a p ha
  obtain ⟨t, ht, j, rfl, rfl⟩ := copies_index points vectors T b q hb
  refine ⟨i, j, T[t] - T[s], ?_, ?_⟩
  · by_cases hst : s = t
    · subst hst
      right; intro hij; subst hij; exact lt_irrefl _ hab
    · left; intro h0
      exact hst ((List.Nodup.getElem_inj_iff hT).1 (sub_eq_zero.1 h0).symm)
  · congr 2
    rw [ndist_eq, ndist_eq, comb_sub]
    congr 1; abel

theorem distInv_neighborDistance {order : List (Fin k → ℤ) → List (Fin k → ℤ)}
    (horder : ∀ l, (order l).Perm l) {prec : ℕ} {points : Fin n → Pt m} {vectors : Fin k → Pt m}
    {L : Lat n m k} (h : DistInv prec points vectors L) (nth : ℤ) :
    DistInv prec points vectors (neighborDistance order prec L nth).1 := by
  unfold neighborDistance
  split_ifs with h0
  · exact h
  · split
    · exact h
    · have key : DistInv prec points vectors
          { L with allDist := distances prec (pdist (sitesFactory order L nth false)) } := by
        refine ⟨h.points_eq, h.vectors_eq, ⟨_, distances_eq prec _, zs_sorted prec _, fun z hz => ?_⟩⟩
        obtain ⟨d, hd, rfl⟩ := mem_zs.1 hz
        refine rounded_of_copies (T := translations order nth false)
          (C50_full_mesh order horder nth (by omega)).1 ?_
        rw [← h.points_eq, ← h.vectors_eq]
        exact hd
      dsimp only
      split <;> exact key

theorem bonds_state {order : List (Fin k → ℤ) → List (Fin k → ℤ)}
    {porder : ∀ N : ℕ, List (Fin N × Fin N) → List (Fin N × Fin N)} {prec : ℕ} {L L' : Lat n m k}
    {nth : ℤ} {only fold : Bool} {r : Py (List (LBond m) × Option (List (LBond m)))}
    (h : bonds order porder prec L nth only fold = some (L', r)) :
    L' = L ∨ L' = (neighborDistance order prec L nth).1 ∨
      L' = (neighborDistance order prec (neighborDistance order prec L nth).1 (nth - 1)).1 := by
  unfold bonds at h
  by_cases h1 : nth < 0
  · rw [if_pos h1] at h; simp at h; exact Or.inl h.1.symm
  rw [if_neg h1] at h
  by_cases h2 : nth = 0
  · rw [if_pos h2] at h; simp at h; exact Or.inl h.1.symm
  rw [if_neg h2] at h
  right
  revert h
  rcases neighborDistance order prec L nth with ⟨L1, _ | hi⟩
  · intro h; simp at h; exact Or.inl h.1.symm
  dsimp only
  rcases guessScope L1 hi with _ | (_ | s)
  · intro h; simp at h
  · intro h; simp at h; exact Or.inl h.1.symm
  · dsimp only
    by_cases ho : only = true ∧ 1 < nth
    · rw [if_pos ho]
      rcases neighborDistance order prec L1 (nth - 1) with ⟨L2, _ | lo⟩
      · intro h; simp at h; exact Or.inr h.1.symm
      · dsimp only
        intro h
        split at h
        · simp at h
        · simp at h; exact Or.inr h.1.symm
        · simp at h; exact Or.inr h.1.symm
    · rw [if_neg ho]
      intro h
      split at h
      · simp at h
      · simp at h; exact Or.inl h.1.symm
      · simp at h; exact Or.inl h.1.symm

theorem distInv_after {order : List (Fin k → ℤ) → List (Fin k → ℤ)}
    (horder : ∀ l, (order l).Perm l)
    {porder : ∀ N : ℕ, List (Fin N × Fin N) → List (Fin N × Fin N)} {prec : ℕ}
    {points : Fin n → Pt m} {vectors : Fin k → Pt m} {L : Lat n m k}
    (h : DistInv prec points vectors L) (call : Call) :
    DistInv prec points vectors (after order porder prec L call) := by
  cases call with
  | neighborDistance nth => exact distInv_neighborDistance horder h nth
  | bonds nth only fold =>
    unfold after
    dsimp only
    split
    · rename_i L' r hb
      rcases bonds_state hb with rfl | rfl | rfl
      · exact h
      · exact distInv_neighborDistance horder h nth
      · exact distInv_neighborDistance horder (distInv_neighborDistance horder h nth) _
    · exact h

theorem distInv_init {prec : ℕ} {points : Fin n → Pt m} {vectors : Fin k → Pt m} {L : Lat n m k}
    (h : init prec points vectors = .ok L) : DistInv prec points vectors L := by
  obtain ⟨_, _, h⟩ := init_ok_iff.1 h
  obtain ⟨h1, h2, _, _, _, h6⟩ := initSame_ok h
  refine ⟨h2, h1, ⟨_, by rw [h6]; exact distances_eq prec _, zs_sorted prec _, fun z hz => ?_⟩⟩
  obtain ⟨d, hd, rfl⟩ := mem_zs.1 hz
  refine rounded_of_copies (T := [0]) (by simp) ?_
  have : copies points vectors [0] = List.ofFn points := by
    unfold copies
    simp [comb_zero, List.ofFn_eq_map]
  rw [this]; exact hd

theorem distInv_history {order : List (Fin k → ℤ) → List (Fin k → ℤ)}
    (horder : ∀ l, (order l).Perm l)
    {porder : ∀ N : ℕ, List (Fin N × Fin N) → List (Fin N × Fin N)} {prec : ℕ}
    {points : Fin n → Pt m} {vectors : Fin k → Pt m} {L : Lat n m k}
    (h : DistInv prec points vectors L) (calls : List Call) :
    DistInv prec points vectors (calls.foldl (after order porder prec) L) := by
  induction calls generalizing L with
  | nil => exact h
  | cons c calls ih => exact ih (distInv_after horder h c)

theorem neighborDistance_ok_cache {order : List (Fin k → ℤ) → List (Fin k → ℤ)} {prec : ℕ}
    {L : Lat n m k} {nth : ℤ} {d : ℝ} (h : (neighborDistance order prec L nth).2 = .ok d) :
    0 ≤ nth ∧ (neighborDistance order prec L nth).1.allDist[nth.toNat]? = some d := by
  unfold neighborDistance at h ⊢
  by_cases h0 : nth < 0
  · rw [if_pos h0] at h; simp at h
  rw [if_neg h0] at h ⊢
  refine ⟨by omega, ?_⟩
  split at h
  · rename_i d' hd
    simp at h
    dsimp only
    rw [hd, h]
  · dsimp only at h ⊢
    split at h
    · rename_i d' hd
      simp at h
      dsimp only
      rw [hd, h]
    · simp at h

/-- **C52 (partial).** After any history of calls of `neighbor_distance` and `bonds`, for every
iteration order of the sets: `neighbor_distance(0)` is 0, and for `nth ≥ 1` an answer is the rounded
distance of two different sites of the infinite lattice, and is not smaller than the n-th such distance:
there are at least `nth` different rounded distances up to and including it. -/
theorem C52_neighbor_distance_partial (order : List (Fin k → ℤ) → List (Fin k → ℤ))
    (horder : ∀ l, (order l).Perm l)
    (porder : ∀ N : ℕ, List (Fin N × Fin N) → List (Fin N × Fin N)) {prec : ℕ}
    {points : Fin n → Pt m} {vectors : Fin k → Pt m} {L0 : Lat n m k}
    (h : init prec points vectors = .ok L0) (calls : List Call) (nth : ℤ) :
    let L := calls.foldl (after order porder prec) L0
    (neighborDistance order prec L 0).2 = .ok 0 ∧
    ∀ d, (neighborDistance order prec L nth).2 = .ok d → 1 ≤ nth →
      ∃ z : ℤ, d = z / 10 ^ prec ∧ RoundedDist prec points vectors z ∧
        ∃ S : Finset ℤ, (S.card : ℤ) = nth ∧ z ∈ S ∧
          ∀ y ∈ S, y ≤ z ∧ RoundedDist prec points vectors y := by
  intro L
  have hinv := distInv_history horder (porder := porder) (distInv_init h) calls
  constructor
  · obtain ⟨l, hl, _⟩ := hinv.cache
    unfold neighborDistance
    rw [if_neg (by norm_num)]
    have : L.allDist[(0 : ℤ).toNat]? = some 0 := by
      change (List.foldl (after order porder prec) L0 calls).allDist[(0 : ℤ).toNat]? = some 0
      rw [hl]; rfl
    rw [this]
  · intro d hd hnth
    obtain ⟨_, hget⟩ := neighborDistance_ok_cache hd
    have hinv' := distInv_neighborDistance horder hinv nth
    obtain ⟨l, hl, hsort, hdist⟩ := hinv'.cache
    change (neighborDistance order prec L nth).1.allDist = _ at hl
    rw [hl] at hget
    obtain ⟨q, hq⟩ : ∃ q : ℕ, nth.toNat = q + 1 := ⟨nth.toNat - 1, by omega⟩
    rw [hq, List.getElem?_cons_succ, List.getElem?_map] at hget
    obtain ⟨z, hz, hzd⟩ := Option.map_eq_some_iff.1 hget
    obtain ⟨hql, hzq⟩ := List.getElem?_eq_some_iff.1 hz
    have hzl : z ∈ l := hzq ▸ List.getElem_mem hql
    refine ⟨z, hzd.symm, hdist z hzl, (l.take (q + 1)).toFinset, ?_, ?_, ?_⟩
    · rw [List.toFinset_card_of_nodup]
      · rw [List.length_take, Nat.min_eq_left (by omega)]; omega
      · exact (hsort.imp (fun h => ne_of_lt h)).sublist (List.take_sublist _ _)
    · rw [List.mem_toFinset, List.mem_take_iff_getElem]
      exact ⟨q, by omega, hzq⟩
    · intro y hy
      rw [List.mem_toFinset, List.mem_take_iff_getElem] at hy
      obtain ⟨p, hp, rfl⟩ := hy
      refine ⟨?_, hdist _ (List.getElem_mem _)⟩
      rcases Nat.lt_or_ge p q with hpq | hpq
      · rw [← hzq]; exact (List.pairwise_iff_getElem.1 hsort p q (by omega) hql hpq).le
      · have : p = q := by omega
        subst this; rw [hzq]

end Verif.Latt
