import Verif.Spec.DistanceExact
import Verif.Proofs.NeighborShells
/-!
Helper lemmas: what `neighbor_distance` answers, in terms of the distances seen (for C52).
-/

namespace Verif.Latt

open Verif.LDB

variable {n m k : ℕ} {S : Set (Pt m)} {points : Fin n → Pt m} {v : Fin k → Pt m} {d : ℝ} {prec nth : ℕ}

theorem WellSpaced.resolved (h : WellSpaced prec S d) : Resolved prec S d := by
  intro x hx y hy hxy hxd
  have := h x hx y hy hxy hxd
  unfold tol
  rw [← mul_div_assoc, mul_one]
  exact this

/-- A cached list that shows the copies in the box `s`. -/
structure Shows (prec : ℕ) (points : Fin n → Pt m) (v : Fin k → Pt m) (s : ℕ) (l : List ℤ) : Prop where
  sorted : l.Pairwise (· < ·)
  mem : ∀ z, z ∈ l ↔ ∃ x ∈ BoxDistances points v s, z = rint (x * 10 ^ prec)

theorem shows_copies {T : List (Fin k → ℤ)} (hT : T.Nodup) {s : ℕ} (hs : ∀ c, c ∈ T ↔ ∀ q, |c q| ≤ (s : ℤ)) :
    Shows prec points v s (zs prec (pdist (copies points v T))) := by
  refine ⟨zs_sorted _ _, fun z => ?_⟩
  rw [mem_zs]
  constructor
  · rintro ⟨x, hx, rfl⟩
    obtain ⟨a, b, p, q, hab, ha, hb, rfl⟩ := mem_pdist.1 hx
    obtain ⟨s', hs', i, rfl, rfl⟩ := copies_index points v T a p ha
    obtain ⟨t, ht, j, rfl, rfl⟩ := copies_index points v T b q hb
    refine ⟨_, ⟨i, j, T[s'], T[t], (hs _).1 (List.getElem_mem hs'), (hs _).1 (List.getElem_mem ht), ?_, rfl⟩,
      by rw [add_comm, add_comm (points j)]⟩
    by_contra hc
    push Not at hc
    obtain ⟨r1, r2⟩ := hc
    have := (List.Nodup.getElem_inj_iff hT).1 r2
    subst this r1
    exact lt_irrefl _ hab
  · rintro ⟨x, ⟨i, j, c, c', hc, hc', hne, rfl⟩, rfl⟩
    refine ⟨_, ?_, rfl⟩
    have := pdist_copies (points := points) (v := v) (T := T) ((hs c).2 hc) ((hs c').2 hc')
      (i := i) (j := j) hne.symm
    convert this using 2 <;> exact add_comm _ _

theorem Shows.length {s : ℕ} {l : List ℤ} (h : Shows prec points v s l) :
    l.length = distancesSeen prec points v s := by
  classical
  have hnd : l.Nodup := h.sorted.imp fun h => ne_of_lt h
  rw [← List.toFinset_card_of_nodup hnd, ← Set.ncard_coe_finset]
  have hp : (10 : ℝ) ^ prec ≠ 0 := by positivity
  refine Set.ncard_congr (fun z _ => (z : ℝ) / 10 ^ prec) ?_ ?_ ?_
  · intro z hz
    simp only [List.coe_toFinset, Set.mem_ofPred_eq] at hz
    obtain ⟨x, hx, rfl⟩ := (h.mem z).1 hz
    exact ⟨x, hx, rfl⟩
  · intro z w _ _ e
    have := (div_left_inj' hp).1 e
    exact_mod_cast this
  · rintro _ ⟨x, hx, rfl⟩
    refine ⟨rint (x * 10 ^ prec), ?_, rfl⟩
    simp only [List.coe_toFinset, Set.mem_ofPred_eq]
    exact (h.mem _).2 ⟨x, hx, rfl⟩

theorem box_sub (ht : ExactTiling S points v) {s : ℕ} {x : ℝ} (hx : x ∈ BoxDistances points v s) :
    x ∈ Distances S := by
  obtain ⟨i, j, c, c', -, -, hne, rfl⟩ := hx
  refine ⟨_, ht.inside i c, _, ht.inside j c', fun e => ?_, rfl⟩
  obtain ⟨r1, r2⟩ := tiling_inj ht e
  rcases hne with h | h
  · exact h r1
  · exact h r2

theorem Shows.full (ht : ExactTiling S points v) {s : ℕ} {l : List ℤ} (h : Shows prec points v s l)
    (hc : SeesAll S points v d s) : Full prec S d l :=
  ⟨h.sorted, fun z hz => by
    obtain ⟨x, hx, e⟩ := (h.mem z).1 hz
    exact ⟨x, box_sub ht hx, e⟩, fun x hx hxd => (h.mem _).2 ⟨x, hc x hx hxd, rfl⟩⟩

/-- If the entry for `nth` is `d` then everything up to `d` is seen. -/
theorem Shows.seesAll (ht : ExactTiling S points v) (hres : Resolved prec S d) (hd : IsNthDistance S nth d)
    (hn : 1 ≤ nth) {s : ℕ} {l : List ℤ} (h : Shows prec points v s l)
    (hl : l[nth - 1]? = some (rint (d * 10 ^ prec))) : SeesAll S points v d s := by
  classical
  obtain ⟨hlen, hget⟩ := List.getElem?_eq_some_iff.1 hl
  have hfin : {x ∈ Distances S | x ≤ d}.Finite := by
    by_contra hc
    have := Set.Infinite.ncard hc
    rw [hd.2] at this
    omega
  -- the rounded seen distances up to `d`
  set A : Set ℝ := {x ∈ BoxDistances points v s | x ≤ d} with hA
  have hAsub : A ⊆ {x ∈ Distances S | x ≤ d} := fun x hx => ⟨box_sub ht hx.1, hx.2⟩
  have hAfin : A.Finite := hfin.subset hAsub
  have hle : nth ≤ A.ncard := by
    have himg : ((l.take nth).toFinset : Set ℤ) ⊆ (fun x : ℝ => rint (x * 10 ^ prec)) '' A := by
      intro z hz
      simp only [List.coe_toFinset, Set.mem_ofPred_eq] at hz
      obtain ⟨x, hx, rfl⟩ := (h.mem z).1 (List.mem_of_mem_take hz)
      refine ⟨x, ⟨hx, ?_⟩, rfl⟩
      by_contra hc
      have hlt := LDB.rint_lt (hres d hd.1 x (box_sub ht hx) (not_le.1 hc) le_rfl)
      obtain ⟨t, htl, he⟩ := List.mem_iff_getElem.1 hz
      rw [List.length_take] at htl
      rw [List.getElem_take] at he
      have hle' : l[t] ≤ l[nth - 1] := by
        rcases Nat.lt_or_ge t (nth - 1) with h1 | h1
        · exact (List.pairwise_iff_getElem.1 h.sorted t (nth - 1) (by omega) hlen h1).le
        · have : t = nth - 1 := by omega
          subst this; exact le_rfl
      rw [he, hget] at hle'
      omega
    have hnd : (l.take nth).Nodup := (h.sorted.imp fun h => ne_of_lt h).sublist (List.take_sublist _ _)
    calc nth = (l.take nth).length := by rw [List.length_take]; omega
      _ = ((l.take nth).toFinset : Set ℤ).ncard := by
        rw [Set.ncard_coe_finset, List.toFinset_card_of_nodup hnd]
      _ ≤ ((fun x : ℝ => rint (x * 10 ^ prec)) '' A).ncard := Set.ncard_le_ncard himg (hAfin.image _)
      _ ≤ A.ncard := Set.ncard_image_le hAfin
  have hAeq : A = {x ∈ Distances S | x ≤ d} := Set.eq_of_subset_of_ncard_le hAsub (by rw [hd.2]; exact hle) hfin
  intro x hx hxd
  have : x ∈ A := by rw [hAeq]; exact ⟨hx, hxd⟩
  exact this.1

/-- The cache shows the cluster, or the box of an earlier search. -/
structure CacheInv (prec : ℕ) (points : Fin n → Pt m) (v : Fin k → Pt m) (L : Lat n m k) : Prop where
  points_eq : L.points = points
  vectors_eq : L.vectors = v
  cache : ∃ (s : ℕ) (l : List ℤ), L.allDist = 0 :: (l.map fun z : ℤ => (z : ℝ) / 10 ^ prec) ∧
    Shows prec points v s l ∧ (s = 0 ∨ distancesSeen prec points v 0 < s)

theorem cacheInv_init {L : Lat n m k} (hL : init prec points v = .ok L) :
    CacheInv prec points v L ∧ ∃ l, L.allDist = 0 :: (l.map fun z : ℤ => (z : ℝ) / 10 ^ prec) ∧
      Shows prec points v 0 l := by
  obtain ⟨_, _, h'⟩ := init_ok_iff.1 hL
  obtain ⟨h1, h2, _, _, _, h6⟩ := initSame_ok h'
  have e : copies points v [0] = List.ofFn points := by
    unfold copies
    simp [comb_zero, List.ofFn_eq_map]
  have hsh : Shows prec points v 0 (zs prec (pdist (copies points v [0]))) :=
    shows_copies (by simp) fun c => by
      simp only [List.mem_singleton, Nat.cast_zero, abs_nonpos_iff]
      exact ⟨fun h q => by rw [h]; rfl, fun h => funext h⟩
  rw [e] at hsh
  have h6' := h6.trans (distances_eq _ _)
  exact ⟨⟨h2, h1, 0, _, h6', hsh, Or.inl rfl⟩, _, h6', hsh⟩

theorem box_mono {s t : ℕ} (hst : s ≤ t) : BoxDistances points v s ⊆ BoxDistances points v t := by
  rintro x ⟨i, j, c, c', h1, h2, h3, rfl⟩
  exact ⟨i, j, c, c', fun q => (h1 q).trans (by exact_mod_cast hst),
    fun q => (h2 q).trans (by exact_mod_cast hst), h3, rfl⟩

theorem search_shows {order : List (Fin k → ℤ) → List (Fin k → ℤ)} (horder : ∀ l, (order l).Perm l)
    {L : Lat n m k} (h1 : L.points = points) (h2 : L.vectors = v) (q : ℕ) (hnone : L.allDist[q]? = none) :
    ∃ l : List ℤ, (neighborDistance order prec L q).1.allDist =
      0 :: (l.map fun z : ℤ => (z : ℝ) / 10 ^ prec) ∧ Shows prec points v q l := by
  obtain ⟨t1, -, t2⟩ := C50_full_mesh order horder (q : ℤ) (by omega)
  have := fresh_eq (order := order) (prec := prec) (L := L) (nth := (q : ℤ)) (by omega) (by simpa using hnone)
  rw [this, h1, h2]
  exact ⟨_, distances_eq _ _, shows_copies t1 fun c => t2 c⟩

theorem seen_mono {s t : ℕ} (hst : s ≤ t) : distancesSeen prec points v s ≤ distancesSeen prec points v t := by
  have hs : ∀ s : ℕ, ∃ l, Shows prec points v s l := fun s => by
    obtain ⟨t1, -, t2⟩ := C50_full_mesh (k := k) id (fun l => List.Perm.refl l) (s : ℤ) (by omega)
    exact ⟨_, shows_copies t1 fun c => t2 c⟩
  obtain ⟨l, hl⟩ := hs s
  obtain ⟨l', hl'⟩ := hs t
  rw [← hl.length, ← hl'.length]
  refine (List.subperm_of_subset (hl.sorted.imp fun h => ne_of_lt h) fun z hz => ?_).length_le
  obtain ⟨x, hx, e⟩ := (hl.mem z).1 hz
  exact (hl'.mem z).2 ⟨x, box_mono hst hx, e⟩

theorem cacheInv_neighbor {order : List (Fin k → ℤ) → List (Fin k → ℤ)} (horder : ∀ l, (order l).Perm l)
    {L : Lat n m k} (hL : CacheInv prec points v L) (q : ℤ) :
    CacheInv prec points v (neighborDistance order prec L q).1 := by
  obtain ⟨s1, s2, -⟩ := neighborDistance_state order prec L q
  refine ⟨s1.trans hL.points_eq, s2.trans hL.vectors_eq, ?_⟩
  by_cases h0 : q < 0
  · unfold neighborDistance; rw [if_pos h0]; exact hL.cache
  · obtain ⟨q, rfl⟩ := Int.eq_ofNat_of_zero_le (by omega : 0 ≤ q)
    rcases hc : L.allDist[q]? with _ | x
    · obtain ⟨l, h1, h2⟩ := search_shows (prec := prec) horder hL.points_eq hL.vectors_eq q hc
      refine ⟨q, l, h1, h2, Or.inr ?_⟩
      obtain ⟨s, l', e, hsh, -⟩ := hL.cache
      rw [e, List.getElem?_eq_none_iff] at hc
      simp only [List.length_cons, List.length_map] at hc
      have := seen_mono (prec := prec) (points := points) (v := v) (Nat.zero_le s)
      rw [hsh.length] at hc
      omega
    · unfold neighborDistance; rw [if_neg h0, Int.toNat_natCast, hc]; exact hL.cache

theorem cacheInv_history {order : List (Fin k → ℤ) → List (Fin k → ℤ)} (horder : ∀ l, (order l).Perm l)
    {porder : ∀ N : ℕ, List (Fin N × Fin N) → List (Fin N × Fin N)} {L : Lat n m k}
    (hL : CacheInv prec points v L) (calls : List Call) :
    CacheInv prec points v (calls.foldl (after order porder prec) L) := by
  induction calls generalizing L with
  | nil => exact hL
  | cons c calls ih =>
    refine ih ?_
    cases c with
    | neighborDistance q => exact cacheInv_neighbor horder hL q
    | bonds q only fold =>
      unfold after
      dsimp only
      split
      · rename_i L' r hb
        rcases bonds_state hb with rfl | rfl | rfl
        · exact hL
        · exact cacheInv_neighbor horder hL q
        · exact cacheInv_neighbor horder (cacheInv_neighbor horder hL q) _
      · exact hL

/-- The answer when the cache shows the box `s`. -/
theorem answer_cached {order : List (Fin k → ℤ) → List (Fin k → ℤ)} (hn : 1 ≤ nth) {L : Lat n m k} {l : List ℤ}
    (h : L.allDist = 0 :: (l.map fun z : ℤ => (z : ℝ) / 10 ^ prec)) (hlen : nth ≤ l.length) :
    neighborDistance order prec L nth = (L, .ok (((l[nth - 1] : ℤ) : ℝ) / 10 ^ prec)) := by
  have e : L.allDist[nth]? = some (((l[nth - 1] : ℤ) : ℝ) / 10 ^ prec) := by
    obtain ⟨q, rfl⟩ : ∃ q, nth = q + 1 := ⟨nth - 1, by omega⟩
    rw [h, List.getElem?_cons_succ, List.getElem?_map, List.getElem?_eq_getElem (by omega)]
    rfl
  rw [neighborDistance, if_neg (by omega), Int.toNat_natCast, e]

theorem answer_searched {order : List (Fin k → ℤ) → List (Fin k → ℤ)} (horder : ∀ l, (order l).Perm l)
    (hn : 1 ≤ nth) {L : Lat n m k} (hL : CacheInv prec points v L) {l : List ℤ}
    (h : L.allDist = 0 :: (l.map fun z : ℤ => (z : ℝ) / 10 ^ prec)) (hlen : l.length < nth) :
    ∃ l', Shows prec points v nth l' ∧ (neighborDistance order prec L nth).2 =
      if h' : nth ≤ l'.length then .ok (((l'[nth - 1] : ℤ) : ℝ) / 10 ^ prec) else raise .indexError := by
  have hnone : L.allDist[nth]? = none := by
    rw [h, List.getElem?_eq_none_iff]; simp; omega
  obtain ⟨l', h1, h2⟩ := search_shows (prec := prec) horder hL.points_eq hL.vectors_eq nth hnone
  refine ⟨l', h2, ?_⟩
  rw [neighborDistance, if_neg (by omega), Int.toNat_natCast, hnone] at h1 ⊢
  dsimp only at h1 ⊢
  by_cases h' : nth ≤ l'.length
  · have e : (0 :: l'.map fun z : ℤ => (z : ℝ) / 10 ^ prec)[nth]? = some (((l'[nth - 1] : ℤ) : ℝ) / 10 ^ prec) := by
      obtain ⟨q, rfl⟩ : ∃ q, nth = q + 1 := ⟨nth - 1, by omega⟩
      rw [List.getElem?_cons_succ, List.getElem?_map, List.getElem?_eq_getElem (by omega)]
      rfl
    rw [dif_pos h']
    split at h1
    · rename_i y hy
      dsimp only at h1
      rw [h1, e] at hy
      exact congrArg _ (Option.some.inj hy).symm
    · rename_i hy
      dsimp only at h1
      rw [h1, e] at hy
      simp at hy
  · rw [dif_neg h']
    have e : (0 :: l'.map fun z : ℤ => (z : ℝ) / 10 ^ prec)[nth]? = none := by
      rw [List.getElem?_eq_none_iff]; simp; omega
    split at h1
    · rename_i y hy
      dsimp only at h1
      rw [h1, e] at hy
      simp at hy
    · rfl

end Verif.Latt
