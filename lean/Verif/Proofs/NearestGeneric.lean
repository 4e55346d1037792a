import Verif.Proofs.NearestBonds
/-!
Helper lemmas: `neighbor_distance(1)` and `bonds(1)` on lattices whose nearest neighbours are within one
cell (for C94).
-/

namespace Verif.LDB

open Verif.Latt

variable {n m k : ℕ} {S : Set (Pt m)} {points : Fin n → Pt m} {v : Fin k → Pt m} {d : ℝ} {prec : ℕ}

/-- The next distance is well above `d`. -/
def Gap (S : Set (Pt m)) (d : ℝ) : Prop :=
  ∀ s ∈ S, ∀ t ∈ S, s ≠ t → ndist s t = d ∨ d + 3 / 20 < ndist s t

/-- What is needed about the cluster. -/
structure NearestData (S : Set (Pt m)) (points : Fin n → Pt m) (v : Fin k → Pt m) (d : ℝ) : Prop where
  tiling : ExactTiling S points v
  pos : 0 < d
  gap : Gap S d
  box : ∀ i j, ∀ c : Fin k → ℤ, ndist (points i + comb v c) (points j) = d → ∀ q, |c q| ≤ 1
  outer : ∃ c : Fin k → ℤ, OnShell c 1 ∧ ∃ i j, ndist (points i + comb v c) (points j) = d
  inner : n = 1 ∨ ∃ i j, i ≠ j ∧ ndist (points i) (points j) = d

theorem roundTo_near (prec : ℕ) (d : ℝ) : |roundTo prec d - d| ≤ tol prec / 2 := by
  have h := rint_near (d * 10 ^ prec)
  have hp : (0 : ℝ) < 10 ^ prec := by positivity
  have e : roundTo prec d - d = ((rint (d * 10 ^ prec) : ℝ) - d * 10 ^ prec) / 10 ^ prec := by
    unfold roundTo; field_simp
  rw [e, abs_div, abs_of_pos hp, tol, div_le_iff₀ hp]
  calc _ ≤ (1 : ℝ) / 2 := h
    _ = _ := by field_simp

theorem isNearestDistance (h : NearestData S points v d) : IsNearestDistance S d := by
  have site0 : ∀ i, points i ∈ S := fun i => by
    have := h.tiling.inside i 0; rwa [comb_zero, add_zero] at this
  refine ⟨?_, ?_⟩
  · obtain ⟨c, _, i, j, hij⟩ := h.outer
    refine ⟨_, h.tiling.inside i c, _, site0 j, fun e => ?_, hij.symm⟩
    rw [e, ndist_self] at hij
    exact h.pos.ne hij
  · rintro x ⟨s, hs, t, ht, hst, rfl⟩
    rcases h.gap s hs t ht hst with h1 | h1
    · exact h1.ge
    · linarith

theorem head_of_sorted {l : List ℤ} (hl : l.Pairwise (· < ·)) {z : ℤ} (hz : z ∈ l)
    (hmin : ∀ y ∈ l, z ≤ y) : l.head? = some z := by
  cases l with
  | nil => simp at hz
  | cons x l =>
    rw [List.mem_cons] at hz
    rcases hz with rfl | hz
    · rfl
    · have := (List.pairwise_cons.1 hl).1 z hz
      have := hmin x List.mem_cons_self
      omega

/-- Distances of copies are at least the nearest distance. -/
theorem rint_ge_of_copies (h : NearestData S points v d) {T : List (Fin k → ℤ)} (hT : T.Nodup)
    {x : ℝ} (hx : x ∈ pdist (copies points v T)) : rint (d * 10 ^ prec) ≤ rint (x * 10 ^ prec) := by
  refine rint_mono (mul_le_mul_of_nonneg_right ?_ (by positivity))
  obtain ⟨a, b, p, q, hab, ha, hb, rfl⟩ := mem_pdist.1 hx
  obtain ⟨s, hs, i, rfl, rfl⟩ := copies_index points v T a p ha
  obtain ⟨t, ht, j, rfl, rfl⟩ := copies_index points v T b q hb
  refine (isNearestDistance h).2 ⟨_, h.tiling.inside i T[s], _, h.tiling.inside j T[t], fun e => ?_,
    by rw [add_comm, add_comm (points j)]⟩
  obtain ⟨r1, r2⟩ := tiling_inj h.tiling e
  have := (List.Nodup.getElem_inj_iff hT).1 r2
  subst this r1
  exact lt_irrefl _ hab

theorem head_copies (h : NearestData S points v d) {T : List (Fin k → ℤ)} (hT : T.Nodup)
    (hd : d ∈ pdist (copies points v T)) :
    (zs prec (pdist (copies points v T))).head? = some (rint (d * 10 ^ prec)) := by
  refine head_of_sorted (zs_sorted _ _) (mem_zs.2 ⟨d, hd, rfl⟩) fun y hy => ?_
  obtain ⟨x, hx, rfl⟩ := mem_zs.1 hy
  exact rint_ge_of_copies h hT hx

/-- What every state satisfies. -/
structure NearInv (prec : ℕ) (points : Fin n → Pt m) (v : Fin k → Pt m) (d : ℝ) (L : Lat n m k) :
    Prop where
  points_eq : L.points = points
  vectors_eq : L.vectors = v
  cache : (n = 1 ∧ L.allDist = [0]) ∨ ∃ l : List ℤ, L.allDist = 0 :: (l.map fun z : ℤ => (z : ℝ) / 10 ^ prec) ∧
    l.head? = some (rint (d * 10 ^ prec))

theorem nearInv_init (h : NearestData S points v d) {L : Lat n m k}
    (hL : init prec points v = .ok L) : NearInv prec points v d L := by
  obtain ⟨_, _, h'⟩ := init_ok_iff.1 hL
  obtain ⟨h1, h2, _, _, _, h6⟩ := initSame_ok h'
  refine ⟨h2, h1, ?_⟩
  have e : copies points v [0] = List.ofFn points := by
    unfold copies
    simp [comb_zero, List.ofFn_eq_map]
  rcases h.inner with rfl | ⟨i, j, hij, hd⟩
  · left
    refine ⟨rfl, ?_⟩
    rw [h6]
    simp [distances, pdist, List.ofFn_succ]
  · right
    rw [h6, ← e]
    refine ⟨_, distances_eq _ _, head_copies h (by simp) ?_⟩
    have := pdist_copies (points := points) (v := v) (T := [0]) (c := 0) (d := 0) (by simp) (by simp)
      (i := i) (j := j) (Or.inr hij)
    rwa [comb_zero, zero_add, zero_add, hd] at this

theorem nearInv_neighbor (h : NearestData S points v d)
    {order : List (Fin k → ℤ) → List (Fin k → ℤ)} (horder : ∀ l, (order l).Perm l)
    {L : Lat n m k} (hL : NearInv prec points v d L) (nth : ℤ) :
    NearInv prec points v d (neighborDistance order prec L nth).1 ∧
      (neighborDistance order prec L 1).2 = .ok (roundTo prec d) := by
  obtain ⟨s1, s2, -⟩ := neighborDistance_state order prec L nth
  have fresh : ∀ q : ℤ, 0 ≤ q → L.allDist[q.toNat]? = none →
      ∃ l : List ℤ, (neighborDistance order prec L q).1.allDist =
        0 :: (l.map fun z : ℤ => (z : ℝ) / 10 ^ prec) ∧ l.head? = some (rint (d * 10 ^ prec)) := by
    intro q hq hnone
    have hq1 : 1 ≤ q := by
      by_contra hc
      have : q = 0 := by omega
      subst this
      rcases hL.cache with ⟨_, h2⟩ | ⟨l, h2, _⟩ <;> rw [h2] at hnone <;> simp at hnone
    obtain ⟨t1, -, t2⟩ := C50_full_mesh order horder q hq
    rw [fresh_eq hq hnone, hL.points_eq, hL.vectors_eq]
    refine ⟨_, distances_eq _ _, head_copies h t1 ?_⟩
    obtain ⟨c, hc, i, j, hij⟩ := h.outer
    have := pdist_copies (points := points) (v := v) (T := translations order q false) (c := c) (d := 0)
      ((t2 c).2 fun i => (hc.1 i).trans hq1) ((t2 0).2 fun i => by simpa using hq) (i := i) (j := j)
      (Or.inl (by
        rintro rfl
        obtain ⟨_, r, hr⟩ := hc
        simp at hr))
    rwa [comb_zero, zero_add, add_comm, hij] at this
  constructor
  · refine ⟨s1.trans hL.points_eq, s2.trans hL.vectors_eq, ?_⟩
    by_cases h0 : nth < 0
    · unfold neighborDistance; rw [if_pos h0]; exact hL.cache
    · rcases hc : L.allDist[nth.toNat]? with _ | x
      · exact Or.inr (fresh nth (by omega) hc)
      · unfold neighborDistance; rw [if_neg h0, hc]; exact hL.cache
  · have get1 : ∀ l : List ℤ, l.head? = some (rint (d * 10 ^ prec)) →
        (0 :: (l.map fun z : ℤ => (z : ℝ) / 10 ^ prec))[(1 : ℤ).toNat]? = some (roundTo prec d) := by
      intro l hl
      cases l with
      | nil => simp at hl
      | cons x l =>
        simp only [List.head?_cons, Option.some.injEq] at hl
        subst hl
        rfl
    rcases hc : L.allDist[(1 : ℤ).toNat]? with _ | x
    · obtain ⟨l, hl, hh⟩ := fresh 1 (by norm_num) hc
      have hg := get1 l hh
      rw [← hl] at hg
      unfold neighborDistance at hg ⊢
      rw [if_neg (by norm_num), hc] at hg ⊢
      dsimp only at hg ⊢
      split at hg
      · rename_i x hx
        dsimp only at hg
        rw [hg] at hx
        have := Option.some.inj hx
        subst this
        rfl
      · rename_i hx
        dsimp only at hg
        rw [hg] at hx
        simp at hx
    · rcases hL.cache with ⟨_, h2⟩ | ⟨l, h2, hh⟩
      · rw [h2] at hc; simp at hc
      · have hg := get1 l hh
        rw [← h2, hc] at hg
        have := Option.some.inj hg
        subst this
        unfold neighborDistance
        rw [if_neg (by norm_num), hc]

theorem nearInv_history (h : NearestData S points v d)
    {order : List (Fin k → ℤ) → List (Fin k → ℤ)} (horder : ∀ l, (order l).Perm l)
    {porder : ∀ N : ℕ, List (Fin N × Fin N) → List (Fin N × Fin N)} {L : Lat n m k}
    (hL : NearInv prec points v d L) (calls : List Call) :
    NearInv prec points v d (calls.foldl (after order porder prec) L) := by
  induction calls generalizing L with
  | nil => exact hL
  | cons c calls ih =>
    refine ih ?_
    cases c with
    | neighborDistance nth => exact (nearInv_neighbor h horder hL nth).1
    | bonds nth only fold =>
      unfold after
      dsimp only
      split
      · rename_i L' r hb
        rcases bonds_state hb with rfl | rfl | rfl
        · exact hL
        · exact (nearInv_neighbor h horder hL nth).1
        · exact (nearInv_neighbor h horder (nearInv_neighbor h horder hL nth).1 _).1
      · exact hL

theorem bs_history' {order : List (Fin k → ℤ) → List (Fin k → ℤ)}
    {porder : ∀ N : ℕ, List (Fin N × Fin N) → List (Fin N × Fin N)} (calls : List Call)
    (M : Lat n m k) : (calls.foldl (after order porder prec) M).bs = M.bs := by
  induction calls generalizing M with
  | nil => rfl
  | cons c calls ih =>
    rw [List.foldl_cons, ih]
    cases c with
    | neighborDistance q => exact (neighborDistance_state order prec M q).2.2
    | bonds q only fold =>
      unfold after
      dsimp only
      split
      · rename_i L' r hb
        rcases bonds_state hb with rfl | rfl | rfl
        · rfl
        · exact (neighborDistance_state order prec M q).2.2
        · rw [(neighborDistance_state order prec _ _).2.2, (neighborDistance_state order prec M q).2.2]
      · rfl

theorem findsTranslate_congr {L L' : Lat n m k} (hp : L'.points = L.points)
    (hv : L'.vectors = L.vectors) {i : Fin n} {c : Fin k → ℤ} (h : FindsTranslate prec L i c) :
    FindsTranslate prec L' i c := by
  refine ⟨?_, ?_⟩
  · rw [decompose_congr hp hv, hp, hv]; exact h.1
  · intro near hnear
    have h3 := h.2 near hnear
    unfold getIndexFold at h3 ⊢
    rw [decompose_congr hp hv, hp, hv]
    have hg : ∀ s, getIndex near prec L' s = getIndex near prec L s := by
      intro s; unfold getIndex; rw [hp]
    simp only [hg]
    exact h3

/-- The scope search leaves at least the first shell in the box. -/
theorem one_le_scope (h : NearestData S points v d) {r : ℝ} (hr : d ≤ r) {s : ℤ}
    (hs : IsScope points v r s) : 1 ≤ s := by
  obtain ⟨c, hc, i, j, hij⟩ := h.outer
  by_contra hcon
  rcases Int.lt_or_le s 0 with hneg | h0
  · have hs' : s = -1 := by have := hs.ge; omega
    obtain ⟨_, q, _⟩ := hc
    have := hs.far 0 ⟨fun i => by simp [hs'], q, by simp [hs']⟩ i i
    rw [comb_zero, add_zero, ndist_self] at this
    have := h.pos
    linarith
  · have hs' : s = 0 := by omega
    have := hs.far c (by rw [hs']; simpa using hc) i j
    rw [hij] at this
    linarith

/-- If the nearest distance is rounded down the scope search stops at once. -/
theorem scope_zero (h : NearestData S points v d) {r : ℝ} (hr : r < d) (hr0 : 0 ≤ r) {s : ℤ}
    (hs : IsScope points v r s) : s = 0 := by
  obtain ⟨c, hc, i, j, hij⟩ := h.outer
  rcases lt_trichotomy s 0 with hneg | h0 | hpos
  · have hs' : s = -1 := by have := hs.ge; omega
    obtain ⟨_, q, _⟩ := hc
    have := hs.far 0 ⟨fun i => by simp [hs'], q, by simp [hs']⟩ i i
    rw [comb_zero, add_zero, ndist_self] at this
    linarith
  · exact h0
  · obtain ⟨c', hc', i', j', hij'⟩ := hs.first 0 (by norm_num) hpos
    exfalso
    have site0 : ∀ i, points i ∈ S := fun i => by
      have := h.tiling.inside i 0; rwa [comb_zero, add_zero] at this
    have := (isNearestDistance h).2 ⟨_, h.tiling.inside i' c', _, site0 j', fun e => by
      have e' : points i' + comb v c' = points j' + comb v 0 := by rw [comb_zero, add_zero]; exact e
      obtain ⟨_, q, hq⟩ := hc'
      rw [(tiling_inj h.tiling e').2] at hq
      simp at hq, rfl⟩
    linarith

/-- `bonds(1)` after any history. -/
theorem nearest_bonds (h : NearestData S points v d) (hp : 1 ≤ prec) (hr : d ≤ roundTo prec d)
    (hk : 1 ≤ k) (order : List (Fin k → ℤ) → List (Fin k → ℤ))
    (horder : ∀ l, (order l).Perm l)
    (porder : ∀ N : ℕ, List (Fin N × Fin N) → List (Fin N × Fin N))
    (hporder : ∀ N l, (porder N l).Perm l) {L0 : Lat n m k} (h0 : init prec points v = .ok L0)
    (hf : ∀ i c, FindsTranslate prec L0 i c) (calls : List Call) (only : Bool) :
    let L := calls.foldl (after order porder prec) L0
    (neighborDistance order prec L 1).2 = .ok (roundTo prec d) ∧
    (∃ L' intra inter, bonds order porder prec L 1 only false = some (L', .ok (intra, some inter)) ∧
      ListsBonds S points v (· = d) intra inter) ∧
    ∃ L' intra inter inter0, bonds order porder prec L 1 only true = some (L', .ok (intra, some inter)) ∧
      ListsBonds S points v (· = d) intra inter0 ∧
      ∀ fold : Pt m → Pt m, (∀ j c, fold (points j + comb v c) = points j) →
        inter.Perm (inter0.map fun b => (b.1, fold b.2)) := by
  intro L
  have inv : NearInv prec points v d L := nearInv_history h horder (nearInv_init h h0) calls
  have hd := (nearInv_neighbor h horder inv 1).2
  refine ⟨hd, ?_⟩
  have inv0 := nearInv_init h h0
  have hn : 1 ≤ n := by
    obtain ⟨_, _, i, _⟩ := h.outer
    have := i.2; omega
  have hfind : ∀ i c, FindsTranslate prec L i c := fun i c =>
    findsTranslate_congr (inv.points_eq.trans inv0.points_eq.symm)
      (inv.vectors_eq.trans inv0.vectors_eq.symm) (hf i c)
  have hvec : L.vectors = L0.vectors := inv.vectors_eq.trans inv0.vectors_eq.symm
  obtain ⟨L1, intra1, inter1, hb1⟩ := C51_bonds_succeed order horder porder h0 hvec
    (bs_history' calls L0) hk hn hfind le_rfl only false hd
  obtain ⟨L2, intra2, inter2, hb2⟩ := C51_bonds_succeed order horder porder h0 hvec
    (bs_history' calls L0) hk hn hfind le_rfl only true hd
  have main : ∀ {hi : ℝ} {P : ℝ → Prop} {s : ℤ} {H : List (Fin k → ℤ)},
      (neighborDistance order prec L 1).2 = .ok hi → LengthRange order prec L 1 only hi P →
      IsHalfBox H s → IsScope L.points L.vectors hi s →
      ListsBonds S points v (· = d) (intraBonds L.points P)
        (interBonds L.points L.vectors H P fun c j => L.points j + comb L.vectors c) := by
    intro hi P s H g1 g2 g3 g4
    rw [hd] at g1
    have g1' := Except.ok.inj g1
    subst g1'
    rw [inv.points_eq, inv.vectors_eq] at g4 ⊢
    unfold LengthRange at g2
    rw [if_neg (fun h => by omega)] at g2
    have hs1 := one_le_scope h hr g4
    have ht := tol_le hp
    have htp := tol_pos prec
    have hnear := abs_le.1 (roundTo_near prec d)
    refine listsBonds_of_half h.tiling ?_ h.pos.ne g3.nodup (fun c hc => (g3.inBox c hc).1) ?_
    · intro s hs t ht' hst
      rw [g2]
      constructor
      · intro hle
        rcases h.gap s hs t ht' hst with h1 | h1
        · exact h1
        · exfalso; linarith [hnear.2]
      · intro e
        rw [e]; linarith [hnear.1]
    · intro i j c hc hdist
      refine g3.half c hc fun q => ?_
      have := h.box j i c (by rw [ndist_comm]; exact hdist) q
      exact this.trans hs1
  constructor
  · obtain ⟨hi, P, s, H, g1, g2, g3, g4, g5, g6, -⟩ := C51_bonds_exact order horder porder hporder hb1
    exact ⟨L1, intra1, inter1, hb1, (main g1 g2 g3 g4).perm g5 (by simpa using g6)⟩
  · obtain ⟨hi, P, s, H, g1, g2, g3, g4, g5, g6⟩ := C51_bonds_fold order horder porder hporder hfind hb2
    refine ⟨L2, intra2, inter2, _, hb2, (main g1 g2 g3 g4).perm g5 (List.Perm.refl _), fun fold hfold => ?_⟩
    refine g6.trans (List.Perm.of_eq ?_)
    unfold interBonds
    rw [List.map_map]
    refine List.map_congr_left fun p _ => ?_
    dsimp only [Function.comp]
    rw [inv.points_eq, inv.vectors_eq, hfold]

/-- If the nearest distance is rounded down, `bonds(1)` finds no bond that leaves the cluster. -/
theorem nearest_missing (h : NearestData S points v d) (hr : roundTo prec d < d)
    (hk : 1 ≤ k) (order : List (Fin k → ℤ) → List (Fin k → ℤ))
    (horder : ∀ l, (order l).Perm l)
    (porder : ∀ N : ℕ, List (Fin N × Fin N) → List (Fin N × Fin N))
    (hporder : ∀ N l, (porder N l).Perm l) {L0 : Lat n m k} (h0 : init prec points v = .ok L0)
    (hf : ∀ i c, FindsTranslate prec L0 i c) (calls : List Call) (only fold : Bool) :
    ∃ L' intra, bonds order porder prec (calls.foldl (after order porder prec) L0) 1 only fold =
      some (L', .ok (intra, some [])) := by
  set L := calls.foldl (after order porder prec) L0 with hLdef
  have inv : NearInv prec points v d L := nearInv_history h horder (nearInv_init h h0) calls
  have hd := (nearInv_neighbor h horder inv 1).2
  have inv0 := nearInv_init h h0
  have hn : 1 ≤ n := by
    obtain ⟨_, _, i, _⟩ := h.outer
    have := i.2; omega
  have hfind : ∀ i c, FindsTranslate prec L i c := fun i c =>
    findsTranslate_congr (inv.points_eq.trans inv0.points_eq.symm)
      (inv.vectors_eq.trans inv0.vectors_eq.symm) (hf i c)
  have hvec : L.vectors = L0.vectors := inv.vectors_eq.trans inv0.vectors_eq.symm
  obtain ⟨L1, intra, inter, hb⟩ := C51_bonds_succeed order horder porder h0 hvec
    (bs_history' calls L0) hk hn hfind le_rfl only fold hd
  refine ⟨L1, intra, ?_⟩
  obtain ⟨hi, P, s, H, g1, g2, g3, g4, g5, g6, -⟩ := C51_bonds_exact order horder porder hporder hb
  rw [hd] at g1
  have g1' := Except.ok.inj g1
  subst g1'
  rw [inv.points_eq, inv.vectors_eq] at g4
  have hr0 : 0 ≤ roundTo prec d := by
    have h1 : rint (((0 : ℤ) : ℝ)) ≤ rint (d * 10 ^ prec) := rint_mono (by
      have := h.pos
      push_cast
      positivity)
    rw [rint_intCast] at h1
    unfold roundTo
    have : (0 : ℝ) ≤ (rint (d * 10 ^ prec) : ℝ) := by exact_mod_cast h1
    positivity
  have hs := scope_zero h hr hr0 g4
  have hH : H = [] := by
    rcases H with _ | ⟨c, H⟩
    · rfl
    · obtain ⟨hc, hb⟩ := g3.inBox c List.mem_cons_self
      exact absurd (funext fun i => by have := hb i; rw [hs] at this; simpa using this) hc
  subst hH
  have : inter = [] := List.Perm.eq_nil g6
  rw [hb, this]

end Verif.LDB
