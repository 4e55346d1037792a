import Verif.Spec.NeighborShells
import Verif.Proofs.NearestGeneric
/-!
Helper lemmas: `neighbor_distance(nth)` and `bonds(nth)` on lattices whose first `nth` distances are seen
(for C95).
-/

namespace Verif.LDB

open Verif.Latt

variable {n m k : ℕ} {S : Set (Pt m)} {points : Fin n → Pt m} {v : Fin k → Pt m} {d : ℝ} {prec nth : ℕ}

/-- The distances up to `d` and the next one are further apart than the tolerance. -/
def Resolved (prec : ℕ) (S : Set (Pt m)) (d : ℝ) : Prop :=
  ∀ x ∈ Distances S, ∀ y ∈ Distances S, x < y → x ≤ d → 3 / 2 * tol prec < y - x

/-- What is needed about the cluster. -/
structure ShellData (prec : ℕ) (S : Set (Pt m)) (points : Fin n → Pt m) (v : Fin k → Pt m) (nth : ℕ)
    (d : ℝ) : Prop where
  tiling : ExactTiling S points v
  one_le : 1 ≤ nth
  isNth : IsNthDistance S nth d
  resolved : Resolved prec S d
  seen : ∀ x ∈ Distances S, x ≤ d → ∃ c : Fin k → ℤ, (∀ q, |c q| ≤ 2) ∧ ∃ i j, (c ≠ 0 ∨ i ≠ j) ∧
    ndist (points i + comb v c) (points j) = x
  inner : (∀ x ∈ Distances S, x ≤ d → ∃ i j, i ≠ j ∧ ndist (points i) (points j) = x) ∨
    (zs prec (pdist (List.ofFn points))).length < nth
  box : ∀ i j, ∀ c : Fin k → ℤ, ndist (points i + comb v c) (points j) ≤ d → ∀ q, ∀ t : ℤ, 1 ≤ t → t ≤ |c q| →
    ∃ c', OnShell c' t ∧ ∃ i' j', ndist (points i' + comb v c') (points j') ≤ roundTo prec d

theorem dist_pos {x : ℝ} (hx : x ∈ Distances S) : 0 < x := by
  obtain ⟨s, _, t, _, hst, rfl⟩ := hx
  refine Real.sqrt_pos.2 (lt_of_le_of_ne (Finset.sum_nonneg fun _ _ => sq_nonneg _) fun h => hst ?_)
  funext a
  have := (Finset.sum_eq_zero_iff_of_nonneg fun _ _ => sq_nonneg _).1 h.symm a (Finset.mem_univ a)
  exact sub_eq_zero.1 (pow_eq_zero_iff (by norm_num) |>.1 this)

theorem rint_lt {x y : ℝ} (h : 3 / 2 * tol prec < y - x) : rint (x * 10 ^ prec) < rint (y * 10 ^ prec) := by
  have h1 := abs_le.1 (rint_near (x * 10 ^ prec))
  have h2 := abs_le.1 (rint_near (y * 10 ^ prec))
  have hp : (0 : ℝ) < 10 ^ prec := by positivity
  have h3 : 3 / 2 < y * 10 ^ prec - x * 10 ^ prec := by
    have := mul_lt_mul_of_pos_right h hp
    have e : 3 / 2 * tol prec * 10 ^ prec = 3 / 2 := by unfold tol; field_simp
    rw [e] at this
    linarith
  have : (rint (x * 10 ^ prec) : ℝ) < rint (y * 10 ^ prec) := by linarith [h1.1, h1.2, h2.1, h2.2]
  exact_mod_cast this

/-- Position of an element in a sorted list. -/
theorem getElem_of_count {l : List ℤ} (hl : l.Pairwise (· < ·)) {z : ℤ} (hz : z ∈ l) :
    l[(l.filter (fun y => decide (y ≤ z))).length - 1]? = some z := by
  induction l with
  | nil => simp at hz
  | cons x l ih =>
    obtain ⟨hx, hl'⟩ := List.pairwise_cons.1 hl
    rw [List.mem_cons] at hz
    rcases hz with rfl | hz
    · have : l.filter (fun y => decide (y ≤ z)) = [] := by
        rw [List.filter_eq_nil_iff]
        intro y hy
        have := hx y hy
        simp; omega
      simp [this]
    · have h1 := hx z hz
      have h2 := ih hl' hz
      have h3 : 1 ≤ (l.filter (fun y => decide (y ≤ z))).length :=
        List.length_pos_of_mem (a := z) (by simp [hz])
      rw [List.filter_cons, if_pos (by simp; omega), List.length_cons]
      have e : (l.filter (fun y => decide (y ≤ z))).length + 1 - 1 =
          ((l.filter (fun y => decide (y ≤ z))).length - 1) + 1 := by omega
      rw [e, List.getElem?_cons_succ]
      exact h2

/-- A list of rounded distances with all those up to `d`. -/
structure Full (prec : ℕ) (S : Set (Pt m)) (d : ℝ) (l : List ℤ) : Prop where
  sorted : l.Pairwise (· < ·)
  sound : ∀ z ∈ l, ∃ x ∈ Distances S, z = rint (x * 10 ^ prec)
  complete : ∀ x ∈ Distances S, x ≤ d → rint (x * 10 ^ prec) ∈ l

theorem full_get {l : List ℤ} (h : Full prec S d l) (hres : Resolved prec S d) {q : ℕ} {d' : ℝ}
    (hd' : IsNthDistance S q d') (hle : d' ≤ d) :
    l[q - 1]? = some (rint (d' * 10 ^ prec)) := by
  classical
  have hmem := h.complete d' hd'.1 hle
  have hcount : (l.filter (fun y => decide (y ≤ rint (d' * 10 ^ prec)))).length = q := by
    rw [← hd'.2]
    have hnd : (l.filter (fun y => decide (y ≤ rint (d' * 10 ^ prec)))).Nodup :=
      (h.sorted.imp (fun h => ne_of_lt h)).filter _
    rw [← List.toFinset_card_of_nodup hnd, ← Set.ncard_coe_finset]
    symm
    refine Set.ncard_congr (fun x _ => rint (x * 10 ^ prec)) ?_ ?_ ?_
    · rintro x ⟨hx, hxd⟩
      have h1 := h.complete x hx (hxd.trans hle)
      have h2 : rint (x * 10 ^ prec) ≤ rint (d' * 10 ^ prec) :=
        rint_mono (mul_le_mul_of_nonneg_right hxd (by positivity))
      simpa using ⟨h1, h2⟩
    · rintro x y ⟨hx, hxd⟩ ⟨hy, hyd⟩ e
      rcases lt_trichotomy x y with h1 | h1 | h1
      · exact absurd e (rint_lt (hres x hx y hy h1 (hxd.trans hle))).ne
      · exact h1
      · exact absurd e (rint_lt (hres y hy x hx h1 (hyd.trans hle))).ne'
    · intro z hz
      simp only [List.coe_toFinset, Set.mem_ofPred_eq, List.mem_filter, decide_eq_true_iff] at hz
      obtain ⟨x, hx, rfl⟩ := h.sound z hz.1
      refine ⟨x, ⟨hx, ?_⟩, rfl⟩
      by_contra hc
      exact absurd hz.2 (not_le.2 (rint_lt (hres d' hd'.1 x hx (not_le.1 hc) hle)))
  have := getElem_of_count h.sorted hmem
  rwa [hcount] at this

/-- What every state satisfies. -/
structure ShellInv (prec : ℕ) (S : Set (Pt m)) (points : Fin n → Pt m) (v : Fin k → Pt m) (nth : ℕ) (d : ℝ)
    (L : Lat n m k) : Prop where
  points_eq : L.points = points
  vectors_eq : L.vectors = v
  cache : ∃ l : List ℤ, L.allDist = 0 :: (l.map fun z : ℤ => (z : ℝ) / 10 ^ prec) ∧
    (l.length < nth ∨ Full prec S d l)

theorem sound_copies (h : ExactTiling S points v) {T : List (Fin k → ℤ)} (hT : T.Nodup) :
    ∀ z ∈ zs prec (pdist (copies points v T)), ∃ x ∈ Distances S, z = rint (x * 10 ^ prec) := by
  intro z hz
  obtain ⟨x, hx, rfl⟩ := mem_zs.1 hz
  refine ⟨x, ?_, rfl⟩
  obtain ⟨a, b, p, q, hab, ha, hb, rfl⟩ := mem_pdist.1 hx
  obtain ⟨s, hs, i, rfl, rfl⟩ := copies_index points v T a p ha
  obtain ⟨t, ht, j, rfl, rfl⟩ := copies_index points v T b q hb
  refine ⟨_, h.inside i T[s], _, h.inside j T[t], fun e => ?_, by rw [add_comm, add_comm (points j)]⟩
  obtain ⟨r1, r2⟩ := tiling_inj h e
  have := (List.Nodup.getElem_inj_iff hT).1 r2
  subst this r1
  exact lt_irrefl _ hab

theorem shellInv_init (h : ShellData prec S points v nth d) {L : Lat n m k}
    (hL : init prec points v = .ok L) : ShellInv prec S points v nth d L := by
  obtain ⟨_, _, h'⟩ := init_ok_iff.1 hL
  obtain ⟨h1, h2, _, _, _, h6⟩ := initSame_ok h'
  refine ⟨h2, h1, ?_⟩
  have e : copies points v [0] = List.ofFn points := by
    unfold copies
    simp [comb_zero, List.ofFn_eq_map]
  refine ⟨_, h6.trans (distances_eq _ _), ?_⟩
  rcases h.inner with hin | hlt
  · right
    rw [← e]
    refine ⟨zs_sorted _ _, sound_copies h.tiling (by simp), fun x hx hxd => ?_⟩
    obtain ⟨i, j, hij, hd⟩ := hin x hx hxd
    refine mem_zs.2 ⟨x, ?_, rfl⟩
    have := pdist_copies (points := points) (v := v) (T := [0]) (c := 0) (d := 0) (by simp) (by simp)
      (i := i) (j := j) (Or.inr hij)
    rwa [comb_zero, zero_add, zero_add, hd] at this
  · exact Or.inl hlt

/-- The cache after a search is complete up to `d`. -/
theorem fresh_full (h : ShellData prec S points v nth d)
    {order : List (Fin k → ℤ) → List (Fin k → ℤ)} (horder : ∀ l, (order l).Perm l)
    {L : Lat n m k} (hL : ShellInv prec S points v nth d L) {q : ℤ} (hq : 0 ≤ q)
    (hnone : L.allDist[q.toNat]? = none) :
    ∃ l : List ℤ, (neighborDistance order prec L q).1.allDist =
      0 :: (l.map fun z : ℤ => (z : ℝ) / 10 ^ prec) ∧ Full prec S d l := by
  have hq1 : 1 ≤ q := by
    by_contra hc
    have : q = 0 := by omega
    subst this
    obtain ⟨l, h2, _⟩ := hL.cache
    rw [h2] at hnone
    simp at hnone
  obtain ⟨t1, -, t2⟩ := C50_full_mesh order horder q hq
  rw [fresh_eq hq hnone, hL.points_eq, hL.vectors_eq]
  refine ⟨_, distances_eq _ _, zs_sorted _ _, sound_copies h.tiling t1, fun x hx hxd => ?_⟩
  obtain ⟨c, hc, i, j, hij, hdist⟩ := h.seen x hx hxd
  refine mem_zs.2 ⟨x, ?_, rfl⟩
  -- the translation is the difference of two in the first box
  have e : c = (fun q => max (-1) (min 1 (c q))) - fun q => max (-1) (min 1 (c q)) - c q := by
    funext q; simp
  have := pdist_copies (points := points) (v := v) (T := translations order q false)
    (c := fun q => max (-1) (min 1 (c q))) (d := fun q => max (-1) (min 1 (c q)) - c q)
    ((t2 _).2 fun i => by rw [abs_le]; omega)
    ((t2 _).2 fun i => by have := abs_le.1 (hc i); rw [abs_le]; omega) (i := i) (j := j) (by
      rcases hij with h | h
      · left
        intro e'
        rw [e'] at e
        exact h (by rw [e, sub_self])
      · exact Or.inr h)
  convert this using 1
  rw [← hdist, ndist_eq, ndist_eq]
  conv_lhs => rw [e, comb_sub]
  congr 1; abel

theorem shellInv_neighbor (h : ShellData prec S points v nth d)
    {order : List (Fin k → ℤ) → List (Fin k → ℤ)} (horder : ∀ l, (order l).Perm l)
    {L : Lat n m k} (hL : ShellInv prec S points v nth d L) (q : ℤ) :
    ShellInv prec S points v nth d (neighborDistance order prec L q).1 := by
  obtain ⟨s1, s2, -⟩ := neighborDistance_state order prec L q
  refine ⟨s1.trans hL.points_eq, s2.trans hL.vectors_eq, ?_⟩
  by_cases h0 : q < 0
  · unfold neighborDistance; rw [if_pos h0]; exact hL.cache
  · rcases hc : L.allDist[q.toNat]? with _ | x
    · obtain ⟨l, h1, h2⟩ := fresh_full h horder hL (by omega) hc
      exact ⟨l, h1, Or.inr h2⟩
    · unfold neighborDistance; rw [if_neg h0, hc]; exact hL.cache

/-- The answer of `neighbor_distance` is in the cache afterwards. -/
theorem neighbor_answer {order : List (Fin k → ℤ) → List (Fin k → ℤ)} {L : Lat n m k} {q : ℤ}
    (hq : 0 ≤ q) {x : ℝ} (hx : (neighborDistance order prec L q).1.allDist[q.toNat]? = some x) :
    (neighborDistance order prec L q).2 = .ok x := by
  unfold neighborDistance at hx ⊢
  rw [if_neg (by omega)] at hx ⊢
  rcases hc : L.allDist[q.toNat]? with _ | y
  · rw [hc] at hx
    dsimp only at hx ⊢
    split
    · rename_i y hy
      rw [hy] at hx
      dsimp only at hx
      rw [hy] at hx
      rw [Option.some.inj hx]
    · rename_i hy
      rw [hy] at hx
      dsimp only at hx
      rw [hy] at hx
      simp at hx
  · rw [hc] at hx
    dsimp only at hx ⊢
    rw [hc] at hx
    rw [Option.some.inj hx]

theorem shell_distance (h : ShellData prec S points v nth d)
    {order : List (Fin k → ℤ) → List (Fin k → ℤ)} (horder : ∀ l, (order l).Perm l)
    {L : Lat n m k} (hL : ShellInv prec S points v nth d L) :
    (∃ l : List ℤ, (neighborDistance order prec L nth).1.allDist =
      0 :: (l.map fun z : ℤ => (z : ℝ) / 10 ^ prec) ∧ Full prec S d l) ∧
    (neighborDistance order prec L nth).2 = .ok (roundTo prec d) := by
  have hfull : ∃ l : List ℤ, (neighborDistance order prec L nth).1.allDist =
      0 :: (l.map fun z : ℤ => (z : ℝ) / 10 ^ prec) ∧ Full prec S d l := by
    rcases hc : L.allDist[(nth : ℤ).toNat]? with _ | x
    · exact fresh_full h horder hL (by omega) hc
    · have e : (neighborDistance order prec L nth).1 = L := by
        unfold neighborDistance; rw [if_neg (by omega), hc]
      rw [e]
      obtain ⟨l, h1, h2 | h2⟩ := hL.cache
      · rw [h1, List.getElem?_eq_none (by simp; omega)] at hc
        simp at hc
      · exact ⟨l, h1, h2⟩
  refine ⟨hfull, neighbor_answer (by omega) ?_⟩
  obtain ⟨l, h1, h2⟩ := hfull
  have := full_get h2 h.resolved h.isNth le_rfl
  rw [h1]
  obtain ⟨q, rfl⟩ : ∃ q, nth = q + 1 := ⟨nth - 1, by have := h.one_le; omega⟩
  rw [Int.toNat_natCast, List.getElem?_cons_succ, List.getElem?_map]
  simp only [Nat.add_sub_cancel] at this
  rw [this]
  rfl

/-- The distance before the `nth`. -/
theorem prev_distance (hd : IsNthDistance S nth d) (hn : 2 ≤ nth) :
    ∃ d', IsNthDistance S (nth - 1) d' ∧ d' < d ∧ ∀ x ∈ Distances S, x < d → x ≤ d' := by
  have hfin : {x ∈ Distances S | x ≤ d}.Finite := by
    by_contra hc
    have := Set.Infinite.ncard hc
    rw [hd.2] at this
    omega
  have hfin' : {x ∈ Distances S | x < d}.Finite := hfin.subset fun x hx => ⟨hx.1, hx.2.le⟩
  have hset : {x ∈ Distances S | x ≤ d} = insert d {x ∈ Distances S | x < d} := by
    ext x
    simp only [Set.mem_ofPred_eq, Set.mem_insert_iff]
    constructor
    · rintro ⟨h1, h2⟩
      rcases h2.lt_or_eq with h3 | h3
      · exact Or.inr ⟨h1, h3⟩
      · exact Or.inl h3
    · rintro (rfl | ⟨h1, h2⟩)
      · exact ⟨hd.1, le_rfl⟩
      · exact ⟨h1, h2.le⟩
  have hcard : {x ∈ Distances S | x < d}.ncard = nth - 1 := by
    have := hd.2
    rw [hset, Set.ncard_insert_of_notMem (by simp) hfin'] at this
    omega
  have hne : {x ∈ Distances S | x < d}.Nonempty := by
    rw [← Set.ncard_pos hfin']; omega
  obtain ⟨d', ⟨h1, h2⟩, hmax⟩ := hfin'.exists_maximalFor id _ hne
  have hmax' : ∀ x ∈ Distances S, x < d → x ≤ d' := by
    intro x hx hxd
    by_contra hc
    exact hc (hmax ⟨hx, hxd⟩ (not_le.1 hc).le)
  refine ⟨d', ⟨h1, ?_⟩, h2, hmax'⟩
  rw [← hcard]
  congr 1
  ext x
  simp only [Set.mem_ofPred_eq]
  exact ⟨fun ⟨a, b⟩ => ⟨a, b.trans_lt h2⟩, fun ⟨a, b⟩ => ⟨a, hmax' x a b⟩⟩

theorem shell_prev (h : ShellData prec S points v nth d)
    {order : List (Fin k → ℤ) → List (Fin k → ℤ)} (horder : ∀ l, (order l).Perm l)
    {L : Lat n m k} (hL : ShellInv prec S points v nth d L) (hn : 2 ≤ nth) {d' : ℝ}
    (hd' : IsNthDistance S (nth - 1) d') (hle : d' ≤ d) :
    (neighborDistance order prec (neighborDistance order prec L nth).1 ((nth : ℤ) - 1)).2 =
      .ok (roundTo prec d') := by
  obtain ⟨⟨l, h1, h2⟩, -⟩ := shell_distance h horder hL
  have := full_get h2 h.resolved hd' hle
  obtain ⟨q, rfl⟩ : ∃ q, nth = q + 2 := ⟨nth - 2, by omega⟩
  have e : (((q + 2 : ℕ) : ℤ) - 1).toNat = q + 1 := by omega
  have hget : (neighborDistance order prec L ((q + 2 : ℕ) : ℤ)).1.allDist[(((q + 2 : ℕ) : ℤ) - 1).toNat]? =
      some (roundTo prec d') := by
    rw [h1, e, List.getElem?_cons_succ, List.getElem?_map]
    have e2 : q + 2 - 1 - 1 = q := by omega
    rw [e2] at this
    rw [this]
    rfl
  rw [neighborDistance, if_neg (by omega), hget]

theorem shellInv_history (h : ShellData prec S points v nth d)
    {order : List (Fin k → ℤ) → List (Fin k → ℤ)} (horder : ∀ l, (order l).Perm l)
    {porder : ∀ N : ℕ, List (Fin N × Fin N) → List (Fin N × Fin N)} {L : Lat n m k}
    (hL : ShellInv prec S points v nth d L) (calls : List Call) :
    ShellInv prec S points v nth d (calls.foldl (after order porder prec) L) := by
  induction calls generalizing L with
  | nil => exact hL
  | cons c calls ih =>
    refine ih ?_
    cases c with
    | neighborDistance q => exact shellInv_neighbor h horder hL q
    | bonds q only fold =>
      unfold after
      dsimp only
      split
      · rename_i L' r hb
        rcases bonds_state hb with rfl | rfl | rfl
        · exact hL
        · exact shellInv_neighbor h horder hL q
        · exact shellInv_neighbor h horder (shellInv_neighbor h horder hL q) _
      · exact hL

theorem roundTo_nonneg (hd : 0 ≤ d) : 0 ≤ roundTo prec d := by
  have h1 : rint (((0 : ℤ) : ℝ)) ≤ rint (d * 10 ^ prec) := rint_mono (by
    push_cast
    positivity)
  rw [rint_intCast] at h1
  unfold roundTo
  have : (0 : ℝ) ≤ (rint (d * 10 ^ prec) : ℝ) := by exact_mod_cast h1
  positivity

/-- The bonds up to `d` are within the scope. -/
theorem shell_scope (h : ShellData prec S points v nth d) {s : ℤ}
    (hs : IsScope points v (roundTo prec d) s) {i j : Fin n} {c : Fin k → ℤ}
    (hd : ndist (points i + comb v c) (points j) ≤ d) (q : Fin k) : |c q| ≤ s := by
  by_contra hc
  push Not at hc
  have h0 : 0 ≤ s := by
    by_contra hneg
    have hs' : s = -1 := by have := hs.ge; omega
    have := hs.far 0 ⟨fun i => by simp [hs'], q, by simp [hs']⟩ i i
    rw [comb_zero, add_zero, ndist_self] at this
    have := roundTo_nonneg (prec := prec) (dist_pos h.isNth.1).le
    linarith
  obtain ⟨c', hc', i', j', hle⟩ := h.box i j c hd q (s + 1) (by omega) (by omega)
  have := hs.far c' hc' i' j'
  linarith

/-- `bonds(nth)` after any history. -/
theorem shell_bonds (h : ShellData prec S points v nth d)
    (hk : 1 ≤ k) (order : List (Fin k → ℤ) → List (Fin k → ℤ))
    (horder : ∀ l, (order l).Perm l)
    (porder : ∀ N : ℕ, List (Fin N × Fin N) → List (Fin N × Fin N))
    (hporder : ∀ N l, (porder N l).Perm l) {L0 : Lat n m k} (h0 : init prec points v = .ok L0)
    (hf : ∀ i c, FindsTranslate prec L0 i c) (calls : List Call) (only : Bool) :
    let L := calls.foldl (after order porder prec) L0
    (neighborDistance order prec L nth).2 = .ok (roundTo prec d) ∧
    (∃ L' intra inter, bonds order porder prec L nth only false = some (L', .ok (intra, some inter)) ∧
      ListsBonds S points v (ShellLength only d) intra inter) ∧
    ∃ L' intra inter inter0, bonds order porder prec L nth only true =
        some (L', .ok (intra, some inter)) ∧
      ListsBonds S points v (ShellLength only d) intra inter0 ∧
      ∀ fold : Pt m → Pt m, (∀ j c, fold (points j + comb v c) = points j) →
        inter.Perm (inter0.map fun b => (b.1, fold b.2)) := by
  intro L
  have inv : ShellInv prec S points v nth d L := shellInv_history h horder (shellInv_init h h0) calls
  have hd := (shell_distance h horder inv).2
  refine ⟨hd, ?_⟩
  have inv0 := shellInv_init h h0
  have dpos := dist_pos h.isNth.1
  have hone := h.one_le
  have hn : 1 ≤ n := by
    obtain ⟨_, _, i, _⟩ := h.seen d h.isNth.1 le_rfl
    have := i.2; omega
  have hfind : ∀ i c, FindsTranslate prec L i c := fun i c =>
    findsTranslate_congr (inv.points_eq.trans inv0.points_eq.symm)
      (inv.vectors_eq.trans inv0.vectors_eq.symm) (hf i c)
  have hvec : L.vectors = L0.vectors := inv.vectors_eq.trans inv0.vectors_eq.symm
  obtain ⟨L1, intra1, inter1, hb1⟩ := C51_bonds_succeed order horder porder h0 hvec
    (bs_history' calls L0) hk hn hfind (nth := (nth : ℤ)) (by omega) only false hd
  obtain ⟨L2, intra2, inter2, hb2⟩ := C51_bonds_succeed order horder porder h0 hvec
    (bs_history' calls L0) hk hn hfind (nth := (nth : ℤ)) (by omega) only true hd
  have htp := tol_pos prec
  have hnear := abs_le.1 (roundTo_near prec d)
  have main : ∀ {hi : ℝ} {P : ℝ → Prop} {s : ℤ} {H : List (Fin k → ℤ)},
      (neighborDistance order prec L nth).2 = .ok hi → LengthRange order prec L nth only hi P →
      IsHalfBox H s → IsScope L.points L.vectors hi s →
      ListsBonds S points v (ShellLength only d) (intraBonds L.points P)
        (interBonds L.points L.vectors H P fun c j => L.points j + comb L.vectors c) := by
    intro hi P s H g1 g2 g3 g4
    rw [hd] at g1
    have g1' := Except.ok.inj g1
    subst g1'
    rw [inv.points_eq, inv.vectors_eq] at g4 ⊢
    have upper : ∀ x ∈ Distances S, x ≤ roundTo prec d + tol prec ↔ x ≤ d := by
      intro x hx
      constructor
      · intro hle
        by_contra hc
        have := h.resolved d h.isNth.1 x hx (not_le.1 hc) le_rfl
        linarith [hnear.2]
      · intro hle
        linarith [hnear.1]
    refine listsBonds_of_half h.tiling ?_ ?_ g3.nodup (fun c hc => (g3.inBox c hc).1) ?_
    · intro s hs t ht' hst
      have hx : ndist s t ∈ Distances S := ⟨s, hs, t, ht', hst, rfl⟩
      unfold LengthRange at g2
      unfold ShellLength
      by_cases hc : only = true ∧ 1 < (nth : ℤ)
      · rw [if_pos hc] at g2
        rw [if_pos hc.1]
        obtain ⟨lo, hlo, hP⟩ := g2
        obtain ⟨d', hd', hlt, hmax⟩ := prev_distance h.isNth (by omega : 2 ≤ nth)
        rw [shell_prev h horder inv (by omega) hd' hlt.le] at hlo
        have hlo' := Except.ok.inj hlo
        subst hlo'
        have hnear' := abs_le.1 (roundTo_near prec d')
        rw [hP, upper _ hx]
        constructor
        · rintro ⟨h1, h2⟩
          by_contra hne
          have := hmax _ hx (lt_of_le_of_ne h2 hne)
          linarith [hnear'.1]
        · intro e
          rw [e]
          have := h.resolved d' hd'.1 d h.isNth.1 hlt hlt.le
          exact ⟨by linarith [hnear'.2], le_rfl⟩
      · rw [if_neg hc] at g2
        rw [g2, upper _ hx]
        by_cases ho : only = true
        · rw [if_pos ho]
          have h1 : nth = 1 := by
            by_contra hne
            exact hc ⟨ho, by omega⟩
          constructor
          · intro hle
            by_contra hne
            have hlt := lt_of_le_of_ne hle hne
            have hfin : {x ∈ Distances S | x ≤ d}.Finite := by
              by_contra hinf
              have := Set.Infinite.ncard hinf
              rw [h.isNth.2] at this
              omega
            have := (Set.ncard_le_one hfin).1 (by rw [h.isNth.2, h1]) _ ⟨hx, hle⟩ _ ⟨h.isNth.1, le_rfl⟩
            exact hne this
          · exact le_of_eq
        · rw [if_neg ho]
          exact ⟨fun hle => ⟨dist_pos hx, hle⟩, fun hle => hle.2⟩
    · unfold ShellLength
      split_ifs
      · exact dpos.ne
      · simp
    · intro i j c hc hdist
      refine g3.half c hc fun q => ?_
      refine shell_scope h g4 (i := j) (j := i) ?_ q
      rw [ndist_comm]
      unfold ShellLength at hdist
      split_ifs at hdist
      · exact hdist.le
      · exact hdist.2
  constructor
  · obtain ⟨hi, P, s, H, g1, g2, g3, g4, g5, g6, -⟩ := C51_bonds_exact order horder porder hporder hb1
    exact ⟨L1, intra1, inter1, hb1, (main g1 g2 g3 g4).perm g5 (by simpa using g6)⟩
  · obtain ⟨hi, P, s, H, g1, g2, g3, g4, g5, g6⟩ := C51_bonds_fold order horder porder hporder hfind hb2
    refine ⟨L2, intra2, inter2, _, hb2, (main g1 g2 g3 g4).perm g5 (List.Perm.refl _), fun fold hfold => ?_⟩
    refine g6.trans (List.Perm.of_eq ?_)
    unfold interBonds
    rw [List.map_map]
    refine List.map_congr_left fun p _ => ?_
    dsimp only [Function.comp]
    rw [inv.points_eq, inv.vectors_eq, hfold]

end Verif.LDB
