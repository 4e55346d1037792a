import Verif.Proofs.LatticeBuilt
import Verif.Props.LatticeComplete
import Verif.Props.LatticeNeighbor
/-!
# Lemmas on the generated chain
-/

namespace Verif.LDB

open Verif.Latt

variable {prec : ℕ}

theorem chain_points_list (n0 : ℤ) :
    superPoints (fun i : Fin 1 => [n0].getD i 0) chainCell.points chainCell.vectors =
      (List.range n0.toNat).map fun i : ℕ => ![(i : ℝ)] := by
  unfold superPoints
  simp only [prodRange, chainCell, List.map_cons, List.map_nil, pyRange, List.flatMap_map,
    Int.sub_zero]
  rw [← List.map_eq_flatMap, ← List.map_eq_flatMap, List.map_map]
  refine List.map_congr_left fun i _ => ?_
  funext a
  fin_cases a
  simp [comb, Matrix.vecHead]

theorem mkLattice_points {m k cnt : ℕ} {l : List (Pt m)} {v : Fin k → Pt m} {L : Lat cnt m k}
    (h : mkLattice prec l v = .ok ⟨cnt, m, k, L⟩) :
    ∃ hl : l.length = cnt, ∀ i, L.points i = l.get (Fin.cast hl.symm i) := by
  unfold mkLattice at h
  cases hi : init prec l.get v with
  | error e => rw [hi] at h; cases h
  | ok L' =>
    rw [hi] at h
    simp only [Except.map] at h
    cases h
    exact ⟨rfl, fun i => by rw [(C46_reciprocal_dual hi).1]; rfl⟩

theorem chain_lat (hp : 1 ≤ prec) {n : ℕ} (hn : 1 ≤ n) {n1 n2 : ℤ} (h1 : 1 ≤ n1) (h2 : 1 ≤ n2) :
    ∃ L : Lat n 1 1, latticeGenerator prec "chain" n n1 n2 = .ok ⟨n, 1, 1, L⟩ ∧
      (∀ i, L.points i = ![((i : ℕ) : ℝ)]) ∧ L.vectors = ![![(n : ℝ)]] ∧
      init prec L.points L.vectors = .ok L ∧ ∀ i c, FindsTranslate prec L i c := by
  have hn' : (1 : ℤ) ≤ n := by exact_mod_cast hn
  have hg := good_chain hp hn' h1 h2
  obtain ⟨L, e1, e2, e3, -, e5⟩ := hg
  obtain ⟨L', f1, f2⟩ := finds_of_good (good_chain hp hn' h1 h2)
    (shellMonotone_of_weaklyOrthogonal _ (weaklyOrthogonal_one _))
  rw [e1] at f1
  cases f1
  have hpts : ∀ i, L.points i = ![((i : ℕ) : ℝ)] := by
    rw [generator_unfold hn' h1 h2, show commonCell "chain" = some ⟨1, chainCell⟩ by simp [commonCell]] at e1
    dsimp only at e1
    rw [if_pos rfl] at e1
    intro i
    by_cases hone : (n : ℤ) = 1
    · rw [if_pos hone] at e1
      obtain ⟨hl, hq⟩ := mkLattice_points e1
      rw [hq]
      have : (i : ℕ) = 0 := by have := i.2; omega
      have : Fin.cast hl.symm i = ⟨0, by simp [chainCell]⟩ := by ext; simpa using this
      rw [this]
      simp [chainCell, *]
    · rw [if_neg hone] at e1
      unfold superLattice at e1
      rw [if_pos (show [(n : ℤ)].length = 1 from rfl)] at e1
      dsimp only at e1
      obtain ⟨hl, hq⟩ := mkLattice_points e1
      rw [hq]
      have := List.getElem_of_eq (chain_points_list n) (i := (i : ℕ)) (by rw [hl]; exact i.2)
      simpa using this
  refine ⟨L, e1, hpts, ?_, e3, f2⟩
  rw [e2]
  funext i a; fin_cases i; fin_cases a; simp [scaleVectors, chainCell]

/-- The invariant of a chain of `n` sites: the cached distances are `0, 1, ..., K`. -/
structure ChainInv (n : ℕ) (L : Lat n 1 1) : Prop where
  points_eq : ∀ i, L.points i = ![((i : ℕ) : ℝ)]
  vectors_eq : L.vectors = ![![(n : ℝ)]]
  cache : ∃ K : ℕ, L.allDist = (List.range (K + 1)).map fun k : ℕ => (k : ℝ)

theorem distances_range {S : List (Pt 1)} {K : ℕ}
    (h1 : ∀ d ∈ pdist S, ∃ k : ℕ, 1 ≤ k ∧ k ≤ K ∧ d = k)
    (h2 : ∀ k : ℕ, 1 ≤ k → k ≤ K → (k : ℝ) ∈ pdist S) :
    distances prec (pdist S) = (List.range (K + 1)).map fun k : ℕ => (k : ℝ) := by
  have hr : ∀ k : ℕ, rint ((k : ℝ) * 10 ^ prec) = k * 10 ^ prec := by
    intro k
    have := rint_intCast (k * 10 ^ prec)
    push_cast at this
    exact this
  have hz : zs prec (pdist S) = (List.range K).map fun k : ℕ => (((k + 1 : ℕ) : ℤ) * 10 ^ prec) := by
    have ha := zs_sorted prec (pdist S)
    have hb : ((List.range K).map fun k : ℕ => (((k + 1 : ℕ) : ℤ) * 10 ^ prec)).Pairwise (· < ·) := by
      rw [List.pairwise_map]
      refine List.pairwise_lt_range.imp fun {a b} hab => ?_
      have : ((a + 1 : ℕ) : ℤ) < ((b + 1 : ℕ) : ℤ) := by exact_mod_cast Nat.succ_lt_succ hab
      exact mul_lt_mul_of_pos_right this (by positivity)
    refine List.Perm.eq_of_pairwise (fun _ _ _ _ h1 h2 => absurd h1 (lt_asymm h2)) ha hb ?_
    rw [List.perm_ext_iff_of_nodup (ha.imp fun h => ne_of_lt h) (hb.imp fun h => ne_of_lt h)]
    intro z
    rw [mem_zs, List.mem_map]
    constructor
    · rintro ⟨d, hd, rfl⟩
      obtain ⟨k, e1, e2, rfl⟩ := h1 d hd
      exact ⟨k - 1, List.mem_range.2 (by omega), by rw [hr, Nat.sub_add_cancel e1]⟩
    · rintro ⟨k, hk, rfl⟩
      exact ⟨_, h2 (k + 1) (by omega) (by have := List.mem_range.1 hk; omega), (hr (k + 1)).symm⟩
  rw [distances_eq, hz, List.range_succ_eq_map, List.map_cons, List.map_map, List.map_map]
  simp only [Nat.cast_zero, List.cons.injEq, true_and]
  refine List.map_congr_left fun k _ => ?_
  simp

theorem comb_chain (n : ℕ) (c : Fin 1 → ℤ) : comb ![![(n : ℝ)]] c = ![(c 0 : ℝ) * n] := by
  funext a; fin_cases a; simp [comb]

theorem ndist_pt (x y : ℝ) : ndist ![x] ![y] = |x - y| := by
  rw [ndist_one]; simp

theorem pt_add (x y : ℝ) : (![x] : Pt 1) + ![y] = ![x + y] := by
  funext a; fin_cases a; simp

/-- The cache computed from a full box of translations. -/
theorem chain_fresh {n : ℕ} (hn : 1 ≤ n) {T : List (Fin 1 → ℤ)} {q : ℕ} (hnd : T.Nodup)
    (hT : ∀ c : Fin 1 → ℤ, c ∈ T ↔ ∀ i, |c i| ≤ q) {points : Fin n → Pt 1}
    (hp : ∀ i, points i = ![((i : ℕ) : ℝ)]) :
    distances prec (pdist (copies points ![![(n : ℝ)]] T)) =
      (List.range ((2 * q + 1) * n - 1 + 1)).map fun k : ℕ => (k : ℝ) := by
  have hn0 : (0 : ℤ) < n := by exact_mod_cast hn
  have hc1 : ∀ c : Fin 1 → ℤ, c = fun _ => c 0 := fun c => by
    funext i; rw [Subsingleton.elim i 0]
  apply distances_range
  · intro d hd
    obtain ⟨a, b, p, p', hab, ha, hb, rfl⟩ := mem_pdist.1 hd
    obtain ⟨s, hs, i, rfl, rfl⟩ := copies_index _ _ _ _ _ ha
    obtain ⟨t, ht, j, rfl, rfl⟩ := copies_index _ _ _ _ _ hb
    have b1 := abs_le.1 ((hT _).1 (List.getElem_mem hs) 0)
    have b2 := abs_le.1 ((hT _).1 (List.getElem_mem ht) 0)
    set x := T[s] 0 with hx
    set y := T[t] 0 with hy
    have hi : ((i : ℕ) : ℤ) < n := by exact_mod_cast i.2
    have hj : ((j : ℕ) : ℤ) < n := by exact_mod_cast j.2
    have hi0 : (0 : ℤ) ≤ ((i : ℕ) : ℤ) := by positivity
    have hj0 : (0 : ℤ) ≤ ((j : ℕ) : ℤ) := by positivity
    rw [hp, hp, comb_chain, comb_chain, pt_add, pt_add, ndist_pt]
    have e : (x : ℝ) * n + ((i : ℕ) : ℝ) - (y * n + ((j : ℕ) : ℝ)) =
        ((x * n + (i : ℕ) - (y * n + (j : ℕ)) : ℤ) : ℝ) := by push_cast; ring
    rw [e, ← Int.cast_abs]
    set z : ℤ := x * n + (i : ℕ) - (y * n + (j : ℕ)) with hz
    have hz0 : z ≠ 0 := by
      intro h0
      have hxy : x = y := by
        have h3 : (x - y) * n = (j : ℕ) - (i : ℕ) := by rw [hz] at h0; linarith
        by_contra hne
        rcases lt_or_gt_of_ne hne with h | h
        · have : (x - y) * n ≤ (-1) * n := mul_le_mul_of_nonneg_right (by omega) hn0.le
          omega
        · have : (1 : ℤ) * n ≤ (x - y) * n := mul_le_mul_of_nonneg_right (by omega) hn0.le
          omega
      have hij : (i : ℕ) = j := by rw [hz, hxy] at h0; omega
      have hst : T[s] = T[t] := by rw [hc1 T[s], hc1 T[t]]; funext _; exact hxy
      have := (List.Nodup.getElem_inj_iff hnd).1 hst
      subst this
      omega
    have h5 : x * n ≤ q * n := mul_le_mul_of_nonneg_right b1.2 hn0.le
    have h6 : y * n ≤ q * n := mul_le_mul_of_nonneg_right b2.2 hn0.le
    have h7 : (-q : ℤ) * n ≤ x * n := mul_le_mul_of_nonneg_right b1.1 hn0.le
    have h8 : (-q : ℤ) * n ≤ y * n := mul_le_mul_of_nonneg_right b2.1 hn0.le
    have hbig : |z| ≤ ((2 * q + 1) * n - 1 : ℕ) := by
      have hge : 1 ≤ (2 * q + 1) * n := Nat.mul_pos (by omega) hn
      rw [Nat.cast_sub hge]
      push_cast
      rw [abs_le]
      constructor <;> rw [hz] <;> linarith
    refine ⟨z.natAbs, ?_, ?_, ?_⟩
    · have := Int.natAbs_pos.2 hz0; omega
    · rw [Int.abs_eq_natAbs] at hbig; exact_mod_cast hbig
    · rw [Int.abs_eq_natAbs]; simp
  · intro k h1 h2
    have hge : 1 ≤ (2 * q + 1) * n := Nat.mul_pos (by omega) hn
    have h2' : (k : ℤ) < (2 * q + 1) * n := by
      have : k < (2 * q + 1) * n := by omega
      exact_mod_cast this
    have hk : (k : ℤ) = n * (k / n) + k % n := (Int.mul_ediv_add_emod _ _).symm
    have hm0 : 0 ≤ (k : ℤ) % n := Int.emod_nonneg _ hn0.ne'
    have hm1 : (k : ℤ) % n < n := Int.emod_lt_of_pos _ hn0
    have hd0 : 0 ≤ (k : ℤ) / n := Int.ediv_nonneg (by positivity) hn0.le
    have hd1 : (k : ℤ) / n < 2 * q + 1 := Int.ediv_lt_of_lt_mul hn0 h2'
    have := pdist_copies (points := points) (v := ![![(n : ℝ)]]) (T := T)
      (c := fun _ => (k : ℤ) / n - q) (d := fun _ => -q)
      (by rw [hT]; intro _; rw [abs_le]; constructor <;> omega)
      (by rw [hT]; intro _; rw [abs_neg, abs_of_nonneg (by positivity)])
      (i := ⟨((k : ℤ) % n).toNat, by omega⟩) (j := ⟨0, by omega⟩) (by
        by_cases h0 : (k : ℤ) / n = 0
        · right
          intro h
          have := congrArg Fin.val h
          simp only [] at this
          rw [h0] at hk
          omega
        · left
          intro h
          have := congrFun h 0
          omega)
    rw [hp, hp, comb_chain, comb_chain, pt_add, pt_add, ndist_pt] at this
    have e : ((((k : ℤ) / n - q : ℤ) : ℝ) * n + ((((k : ℤ) % n).toNat : ℕ) : ℝ)) -
        (((-q : ℤ) : ℝ) * n + ((0 : ℕ) : ℝ)) = (k : ℝ) := by
      have h3 : ((((k : ℤ) % n).toNat : ℕ) : ℝ) = (((k : ℤ) % n : ℤ) : ℝ) := by
        rw [← Int.cast_natCast, Int.toNat_of_nonneg hm0]
      have h4 : (k : ℝ) = ((n : ℤ) : ℝ) * (((k : ℤ) / n : ℤ) : ℝ) + (((k : ℤ) % n : ℤ) : ℝ) := by
        exact_mod_cast hk
      rw [h3, h4]
      push_cast
      ring
    rw [e, abs_of_nonneg (by positivity)] at this
    exact this

theorem chainInv_init {n : ℕ} (hn : 1 ≤ n) {L : Lat n 1 1} (hp : ∀ i, L.points i = ![((i : ℕ) : ℝ)])
    (hv : L.vectors = ![![(n : ℝ)]]) (h : init prec L.points L.vectors = .ok L) : ChainInv n L := by
  refine ⟨hp, hv, ⟨(2 * 0 + 1) * n - 1, ?_⟩⟩
  obtain ⟨_, _, h'⟩ := init_ok_iff.1 h
  obtain ⟨_, _, _, _, _, h6⟩ := initSame_ok h'
  rw [h6, ← chain_fresh (prec := prec) hn (T := [0]) (q := 0) (by simp) (by
    intro c
    rw [List.mem_singleton]
    constructor
    · rintro rfl; simp
    · intro h; funext i; simpa using h i) hp]
  congr 2
  unfold copies
  simp [comb_zero, List.ofFn_eq_map]

theorem chainInv_neighbor {order : List (Fin 1 → ℤ) → List (Fin 1 → ℤ)}
    (horder : ∀ l, (order l).Perm l) {n : ℕ} (hn : 1 ≤ n) {L : Lat n 1 1} (h : ChainInv n L) (nth : ℤ) :
    ChainInv n (neighborDistance order prec L nth).1 ∧
    (0 ≤ nth → (neighborDistance order prec L nth).2 = .ok nth) := by
  obtain ⟨s1, s2, -⟩ := neighborDistance_state order prec L nth
  obtain ⟨K, hK⟩ := h.cache
  by_cases h0 : nth < 0
  · unfold neighborDistance
    rw [if_pos h0]
    exact ⟨h, fun h' => by omega⟩
  · obtain ⟨q, rfl⟩ : ∃ q : ℕ, nth = q := ⟨nth.toNat, by omega⟩
    by_cases hq : q < K + 1
    · have : L.allDist[(q : ℤ).toNat]? = some (q : ℝ) := by rw [hK]; simp [hq]
      unfold neighborDistance
      rw [if_neg h0, this]
      exact ⟨h, fun _ => by simp⟩
    · have hnone : L.allDist[(q : ℤ).toNat]? = none := by rw [hK]; simp; omega
      have hf := fresh_eq (order := order) (prec := prec) (by omega) hnone
      obtain ⟨t1, -, t2⟩ := C50_full_mesh order horder q (by omega)
      rw [h.vectors_eq, chain_fresh hn t1 t2 h.points_eq] at hf
      refine ⟨⟨by rw [s1]; exact h.points_eq, by rw [s2]; exact h.vectors_eq, ⟨_, hf⟩⟩, fun _ => ?_⟩
      have hlt : q < (2 * q + 1) * n - 1 + 1 := by
        have : (2 * q + 1) * 1 ≤ (2 * q + 1) * n := Nat.mul_le_mul_left _ hn
        omega
      unfold neighborDistance at hf ⊢
      rw [if_neg h0, hnone] at hf ⊢
      dsimp only at hf ⊢
      split at hf
      · rename_i d hd
        dsimp only at hf ⊢
        rw [hf] at hd
        simp only [Int.toNat_natCast, List.getElem?_map, List.getElem?_range hlt, Option.map_some,
          Option.some.injEq] at hd
        subst hd
        simp
      · rename_i hd
        dsimp only at hf ⊢
        rw [hf] at hd
        simp at hd
        omega

theorem chainInv_history {order : List (Fin 1 → ℤ) → List (Fin 1 → ℤ)}
    (horder : ∀ l, (order l).Perm l)
    {porder : ∀ N : ℕ, List (Fin N × Fin N) → List (Fin N × Fin N)} {n : ℕ} (hn : 1 ≤ n)
    {L : Lat n 1 1} (h : ChainInv n L) (calls : List Call) :
    ChainInv n (calls.foldl (after order porder prec) L) := by
  induction calls generalizing L with
  | nil => exact h
  | cons c calls ih =>
    refine ih ?_
    cases c with
    | neighborDistance nth => exact (chainInv_neighbor horder hn h nth).1
    | bonds nth only fold =>
      unfold after
      dsimp only
      split
      · rename_i L' r hb
        rcases bonds_state hb with rfl | rfl | rfl
        · exact h
        · exact (chainInv_neighbor horder hn h nth).1
        · exact (chainInv_neighbor horder hn (chainInv_neighbor horder hn h nth).1 _).1
      · exact h

end Verif.LDB
