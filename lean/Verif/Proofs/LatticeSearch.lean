import Verif.Proofs.LatticeShell
/-!
Helper lemmas: `_searching`, `decompose`, half meshes.
-/

namespace Verif.Latt

variable {n m k : ℕ}

theorem searching_some {prec : ℕ} {L : Lat n m k} {db : List (Fin k → ℤ)} {disp : Fin n → Pt m}
    {p d : Pt m} (h : searching prec L db disp = some (p, d)) :
    ∃ i, p = L.points i ∧ d = disp i ∧ ∃ c ∈ db, ndist (disp i) (comb L.vectors c) < tol prec := by
  classical
  unfold searching at h
  split at h
  · rename_i i hi
    simp only [Option.some.injEq, Prod.mk.injEq] at h
    have : i ∈ (List.finRange n).filter
        (fun i => decide (∃ c ∈ db, ndist (disp i) (comb L.vectors c) < tol prec)) := by
      rw [hi]; simp
    rw [List.mem_filter, decide_eq_true_iff] at this
    exact ⟨i, h.1.symm, h.2.symm, this.2⟩
  · simp at h

theorem filter_eq_singleton {α : Type} [DecidableEq α] {l : List α} (hl : l.Nodup) {p : α → Bool}
    {i : α} (hi : i ∈ l) (hp : p i = true) (hu : ∀ j, p j = true → j = i) : l.filter p = [i] := by
  have h1 : (l.filter p).Nodup := hl.filter p
  have h2 : (l.filter p).Perm [i] := by
    rw [List.perm_ext_iff_of_nodup h1 (by simp)]
    intro a
    rw [List.mem_filter, List.mem_singleton]
    exact ⟨fun h => hu a h.2, fun h => by subst h; exact ⟨hi, hp⟩⟩
  exact List.perm_singleton.1 h2

/-- Exactly one cluster point matches. -/
theorem searching_unique {prec : ℕ} {L : Lat n m k} {db : List (Fin k → ℤ)} {disp : Fin n → Pt m}
    (i : Fin n) (hi : ∃ c ∈ db, ndist (disp i) (comb L.vectors c) < tol prec)
    (hu : ∀ j, (∃ c ∈ db, ndist (disp j) (comb L.vectors c) < tol prec) → j = i) :
    searching prec L db disp = some (L.points i, disp i) := by
  classical
  unfold searching
  rw [filter_eq_singleton (List.nodup_finRange n) (List.mem_finRange i) (by simpa using hi)
    (fun j hj => hu j (by simpa using hj))]

theorem searching_none {prec : ℕ} {L : Lat n m k} {db : List (Fin k → ℤ)} {disp : Fin n → Pt m}
    (h : ∀ i, ∀ c ∈ db, tol prec ≤ ndist (disp i) (comb L.vectors c)) :
    searching prec L db disp = none := by
  classical
  unfold searching
  rw [List.filter_eq_nil_iff.2]
  intro i _
  simp only [decide_eq_true_iff, not_exists, not_and, not_lt]
  exact h i

theorem le_foldl_max (l : List ℝ) (x : ℝ) : x ≤ l.foldl max x ∧ ∀ y ∈ l, y ≤ l.foldl max x := by
  induction l generalizing x with
  | nil => simp
  | cons a l ih =>
    obtain ⟨h1, h2⟩ := ih (max x a)
    refine ⟨(le_max_left _ _).trans h1, ?_⟩
    intro y hy
    rcases List.mem_cons.1 hy with h | h
    · rw [h]; exact (le_max_right _ _).trans h1
    · exact h2 y h

theorem maxNorm_ok (hn : n ≠ 0) (disp : Fin n → Pt m) :
    ∃ r, maxNorm disp = .ok r ∧ ∀ i, nnorm (disp i) ≤ r := by
  unfold maxNorm
  have hm : ∀ i, nnorm (disp i) ∈ (List.finRange n).map fun i => nnorm (disp i) :=
    fun i => List.mem_map.2 ⟨i, List.mem_finRange i, rfl⟩
  split
  · rename_i h
    rw [h] at hm
    exact absurd (hm ⟨0, Nat.pos_of_ne_zero hn⟩) (by simp)
  · rename_i x xs h
    rw [h] at hm
    refine ⟨_, rfl, fun i => ?_⟩
    obtain ⟨h1, h2⟩ := le_foldl_max xs x
    rcases List.mem_cons.1 (hm i) with h | h
    · rw [h]; exact h1
    · exact h2 _ h

theorem decompose_ok {prec : ℕ} {L : Lat n m k} {site p d : Pt m}
    (h : decompose prec L site = some (.ok (p, d))) :
    ∃ i, p = L.points i ∧ d = site - L.points i ∧
      ∃ c : Fin k → ℤ, ndist d (comb L.vectors c) < tol prec := by
  unfold decompose at h
  dsimp only at h
  split at h
  · rename_i r hr
    simp only [Option.some.injEq, Except.ok.injEq] at h
    rw [h] at hr
    obtain ⟨i, a, b, c, _, hc⟩ := searching_some hr
    exact ⟨i, a, b, c, by rw [b]; exact hc⟩
  · split at h
    · simp at h
    · split at h
      · simp at h
      · simp at h
      · split at h
        · rename_i r hr
          simp only [Option.some.injEq, Except.ok.injEq] at h
          rw [h] at hr
          obtain ⟨i, a, b, c, _, hc⟩ := searching_some hr
          exact ⟨i, a, b, c, by rw [b]; exact hc⟩
        · simp at h

/-- Under the shell condition the search reaches every translate of every cluster point. -/
theorem decompose_translate {prec : ℕ} {L : Lat n m k}
    (hb : ∀ i j, ∑ a, L.bs i a * L.vectors j a = if i = j then 2 * Real.pi else 0)
    (hi : Inequivalent prec L.points L.vectors) (hv : ShellMonotone L.vectors) (i : Fin n)
    (c : Fin k → ℤ) :
    decompose prec L (L.points i + comb L.vectors c) = some (.ok (L.points i, comb L.vectors c)) := by
  have hn : n ≠ 0 := fun h => by subst h; exact i.elim0
  set site := L.points i + comb L.vectors c with hsite
  have hdi : site - L.points i = comb L.vectors c := by rw [hsite]; abel
  -- only `i` can match
  have hu : ∀ (db : List (Fin k → ℤ)) (j : Fin n),
      (∃ d ∈ db, ndist (site - L.points j) (comb L.vectors d) < tol prec) → j = i := by
    rintro db j ⟨d, _, hd⟩
    by_contra hij
    have := hi i j (Ne.symm hij) (c - d)
    rw [ndist_eq] at this hd
    rw [comb_sub, show L.points i + (comb L.vectors c - comb L.vectors d) - L.points j =
      site - L.points j - comb L.vectors d by rw [hsite]; abel] at this
    linarith
  have hmatch : ∀ db : List (Fin k → ℤ), c ∈ db →
      searching prec L db (fun j => site - L.points j) = some (L.points i, comb L.vectors c) := by
    intro db hc
    have := searching_unique (disp := fun j => site - L.points j) (L := L) (db := db) (prec := prec) i
      ⟨c, hc, by rw [hdi, ndist_self]; exact tol_pos prec⟩ (hu db)
    rwa [hdi] at this
  unfold decompose
  dsimp only
  split
  · rename_i r hr
    obtain ⟨j, h1, h2, c', hc', h3⟩ := searching_some (p := r.1) (d := r.2) hr
    have hji := hu _ j ⟨c', hc', h3⟩
    subst hji
    rw [hdi] at h2
    rw [← h1, ← h2]
  · rename_i hnone
    have hk : k ≠ 0 := by
      intro h
      subst h
      rw [hmatch (mesh [-1, 0, 1] 0) (by rw [mem_mesh]; exact fun i => i.elim0)] at hnone
      simp at hnone
    obtain ⟨ref, href, hmax⟩ := maxNorm_ok hn (fun j => site - L.points j)
    rw [href]
    dsimp only
    obtain ⟨s, hs⟩ := guessScope_terminates hb hk hn ref
    rw [hs]
    dsimp only
    obtain ⟨_, _, hs0, hfar, _⟩ := guessScope_ok hs
    have hc0 : nnorm (comb L.vectors c) ≤ ref := by have := hmax i; rwa [hdi] at this
    -- every shell below the scope contains a vector at most as long as the translation
    have hbox : ∀ q, |c q| ≤ s := by
      by_contra hcon
      push Not at hcon
      obtain ⟨q0, hq0⟩ := hcon
      obtain ⟨q, hq⟩ : ∃ q, ∀ q', |c q'| ≤ |c q| := by
        have : Nonempty (Fin k) := ⟨q0⟩
        exact Finite.exists_max fun q => |c q|
      have hcq : OnShell c |c q| := ⟨hq, q, rfl⟩
      have hsq : s < |c q| := lt_of_lt_of_le hq0 (hq q0)
      have hedge : ∀ d : Fin k → ℤ, OnShell d (s + 1) → ref < nnorm (comb L.vectors d) := by
        intro d hd
        have := hfar d ((mem_edge s d).2 hd) i i
        rwa [ndist_eq, add_sub_cancel_left] at this
      by_cases hs1 : s = -1
      · have := hedge 0 ⟨fun i => by simp [hs1], q0, by simp [hs1]⟩
        rw [comb_zero, nnorm_zero] at this
        linarith [nnorm_nonneg (comb L.vectors c)]
      · obtain ⟨d, hd, hdc⟩ := hv c |c q| (s + 1) hcq (by omega) (by omega)
        linarith [hedge d hd]
    rw [hmatch _ ((mem_box s c).2 hbox)]

/-! ### Half meshes -/

def halfStep (acc : List (Fin k → ℤ)) (c : Fin k → ℤ) : List (Fin k → ℤ) :=
  if (-c) ∈ acc then acc else if c ∈ acc then acc else acc ++ [c]

/-- What the loop maintains after processing the list `l`. -/
structure HalfInv (l acc : List (Fin k → ℤ)) : Prop where
  nodup : acc.Nodup
  sub : ∀ c ∈ acc, c ∈ l
  cover : ∀ c ∈ l, c ∈ acc ∨ -c ∈ acc
  anti : ∀ c ∈ acc, -c ∈ acc → c = 0

theorem neg_eq_self_iff (c : Fin k → ℤ) : -c = c ↔ c = 0 := by
  constructor
  · intro h; funext i; have := congrFun h i; simp at this ⊢; omega
  · rintro rfl; simp

theorem halfInv_step {l acc : List (Fin k → ℤ)} (h : HalfInv l acc) (c : Fin k → ℤ) :
    HalfInv (l ++ [c]) (halfStep acc c) := by
  unfold halfStep
  split_ifs with h1 h2
  · refine ⟨h.nodup, fun d hd => List.mem_append_left _ (h.sub d hd), fun d hd => ?_, h.anti⟩
    rcases List.mem_append.1 hd with hd | hd
    · exact h.cover d hd
    · rw [List.mem_singleton] at hd; subst hd; exact Or.inr h1
  · refine ⟨h.nodup, fun d hd => List.mem_append_left _ (h.sub d hd), fun d hd => ?_, h.anti⟩
    rcases List.mem_append.1 hd with hd | hd
    · exact h.cover d hd
    · rw [List.mem_singleton] at hd; subst hd; exact Or.inl h2
  · refine ⟨?_, fun d hd => ?_, fun d hd => ?_, fun d hd hnd => ?_⟩
    · rw [List.nodup_append]
      refine ⟨h.nodup, by simp, ?_⟩
      intro a ha b hb hab
      rw [List.mem_singleton] at hb; subst hb; subst hab; exact h2 ha
    · rcases List.mem_append.1 hd with hd | hd
      · exact List.mem_append_left _ (h.sub d hd)
      · exact List.mem_append_right _ hd
    · rcases List.mem_append.1 hd with hd | hd
      · rcases h.cover d hd with h3 | h3
        · exact Or.inl (List.mem_append_left _ h3)
        · exact Or.inr (List.mem_append_left _ h3)
      · exact Or.inl (List.mem_append_right _ hd)
    · rcases List.mem_append.1 hd with hd | hd
      · rcases List.mem_append.1 hnd with hnd | hnd
        · exact h.anti d hd hnd
        · rw [List.mem_singleton] at hnd
          rw [← hnd, neg_neg] at h1; exact absurd hd h1
      · rw [List.mem_singleton] at hd
        subst hd
        rcases List.mem_append.1 hnd with hnd | hnd
        · exact absurd hnd h1
        · rw [List.mem_singleton] at hnd; exact (neg_eq_self_iff d).1 hnd

theorem halfInv_foldl (l : List (Fin k → ℤ)) : HalfInv l (l.foldl halfStep []) := by
  induction l using List.reverseRecOn with
  | nil => exact ⟨by simp, by simp, by simp, by simp⟩
  | append_singleton l c ih => rw [List.foldl_append]; exact halfInv_step ih c

theorem halfMesh_inv (k : ℕ) (s : ℤ) :
    HalfInv (mesh (pyRange (-s) (s + 1)) k) (halfMesh k s) := halfInv_foldl _

end Verif.Latt
