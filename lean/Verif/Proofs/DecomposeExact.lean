import Verif.Proofs.LatticeSearch
/-! Helpers for C49 (`Props/DecomposeExact.lean`). -/

namespace Verif.Latt

variable {n m k : ℕ}

theorem maxNorm_mem {disp : Fin n → Pt m} {r : ℝ} (h : maxNorm disp = .ok r) : ∃ i, r = nnorm (disp i) := by
  unfold maxNorm at h
  split at h
  · simp [raise] at h
  · rename_i x xs hx
    have hm : ∀ (xs : List ℝ) (x : ℝ), xs.foldl max x = x ∨ xs.foldl max x ∈ xs := by
      intro xs
      induction xs with
      | nil => intro x; exact Or.inl rfl
      | cons y ys ih =>
        intro x
        rw [List.foldl_cons]
        rcases ih (max x y) with h | h
        · rcases max_choice x y with e | e
          · left; rw [h, e]
          · right; rw [h, e]; exact List.mem_cons_self
        · right; exact List.mem_cons_of_mem _ h
    have : r ∈ (List.finRange n).map fun i => nnorm (disp i) := by
      rw [hx, ← Except.ok.inj h]
      rcases hm xs x with e | e
      · rw [e]; exact List.mem_cons_self
      · exact List.mem_cons_of_mem _ e
    obtain ⟨i, -, e⟩ := List.mem_map.1 this
    exact ⟨i, e.symm⟩

/-- The answer of `decompose` for a translate of a cluster point. -/
theorem decompose_exact {prec : ℕ} {L : Lat n m k}
    (hb : ∀ i j, ∑ a, L.bs i a * L.vectors j a = if i = j then 2 * Real.pi else 0)
    (hi : Inequivalent prec L.points L.vectors)
    (hsep : ∀ d : Fin k → ℤ, d ≠ 0 → tol prec ≤ nnorm (comb L.vectors d)) (i : Fin n)
    (c : Fin k → ℤ) (ref : ℝ) (hatt : ∃ j, ref = ndist (L.points i + comb L.vectors c) (L.points j))
    (hmax : ∀ j, ndist (L.points i + comb L.vectors c) (L.points j) ≤ ref) :
    ((∀ (t : ℤ) (q : Fin k), 1 ≤ t → t < |c q| → ∃ d, OnShell d t ∧ ∃ j l,
        ndist (L.points j + comb L.vectors d) (L.points l) ≤ ref) →
      decompose prec L (L.points i + comb L.vectors c) = some (.ok (L.points i, comb L.vectors c))) ∧
    ((∃ (t : ℤ) (q : Fin k), 1 ≤ t ∧ t < |c q| ∧ ∀ d, OnShell d t → ∀ j l,
        ref < ndist (L.points j + comb L.vectors d) (L.points l)) →
      decompose prec L (L.points i + comb L.vectors c) = some (.error .runtimeError)) := by
  have hn : n ≠ 0 := fun h => by subst h; exact i.elim0
  set site := L.points i + comb L.vectors c with hsite
  have hdi : site - L.points i = comb L.vectors c := by rw [hsite]; abel
  have hu : ∀ (db : List (Fin k → ℤ)) (j : Fin n),
      (∃ d ∈ db, ndist (site - L.points j) (comb L.vectors d) < tol prec) → j = i := by
    rintro db j ⟨d, _, hd⟩
    by_contra hij
    have := hi i j (Ne.symm hij) (c - d)
    rw [ndist_eq] at this hd
    rw [comb_sub, show L.points i + (comb L.vectors c - comb L.vectors d) - L.points j =
      site - L.points j - comb L.vectors d by rw [hsite]; abel] at this
    linarith
  have hmatch : ∀ db : List (Fin k → ℤ), c ∈ db →
      searching prec L db (fun j => site - L.points j) = some (L.points i, comb L.vectors c) := by
    intro db hc
    have := searching_unique (disp := fun j => site - L.points j) (L := L) (db := db) (prec := prec) i
      ⟨c, hc, by rw [hdi, ndist_self]; exact tol_pos prec⟩ (hu db)
    rwa [hdi] at this
  have hmiss : ∀ db : List (Fin k → ℤ), c ∉ db →
      searching prec L db (fun j => site - L.points j) = none := by
    intro db hc
    refine searching_none fun j d hd => ?_
    by_contra hlt
    push Not at hlt
    have hji := hu db j ⟨d, hd, hlt⟩
    subst hji
    rw [hdi, ndist_eq, ← comb_sub] at hlt
    have := hsep (c - d) fun h => hc (by rw [sub_eq_zero.1 h]; exact hd)
    linarith
  obtain ⟨ref', href, hmax'⟩ := maxNorm_ok hn (fun j => site - L.points j)
  have hrr : ref' = ref := by
    obtain ⟨j1, e1⟩ := maxNorm_mem href
    obtain ⟨j2, e2⟩ := hatt
    apply le_antisymm
    · rw [e1]; exact hmax j1
    · rw [e2]; exact hmax' j2
  subst hrr
  have h3 : c ∈ mesh [-1, 0, 1] k ↔ ∀ q, |c q| ≤ 1 := by
    rw [mem_mesh]
    refine forall_congr' fun q => ?_
    simp only [List.mem_cons, List.not_mem_nil, or_false]
    rw [abs_le]; omega
  have h0 : (0 : ℝ) ≤ ref' := by
    have := hmax' i
    exact le_trans (nnorm_nonneg _) this
  constructor
  · intro hall
    unfold decompose
    dsimp only
    by_cases h1 : c ∈ mesh [-1, 0, 1] k
    · rw [hmatch _ h1]
    · rw [hmiss _ h1, href]
      dsimp only
      have hk : k ≠ 0 := by
        rintro rfl
        exact h1 (h3.2 fun q => q.elim0)
      obtain ⟨s, hs⟩ := guessScope_terminates hb hk hn ref'
      rw [hs]
      dsimp only
      obtain ⟨_, _, hs0, hfar, _⟩ := guessScope_ok hs
      have hbox : ∀ q, |c q| ≤ s := by
        by_contra hcon
        push Not at hcon
        obtain ⟨q0, hq0⟩ := hcon
        obtain ⟨q, hq⟩ : ∃ q, ∀ q', |c q'| ≤ |c q| := by
          have : Nonempty (Fin k) := ⟨q0⟩
          exact Finite.exists_max fun q => |c q|
        have hcq : OnShell c |c q| := ⟨hq, q, rfl⟩
        have hsq : s < |c q| := lt_of_lt_of_le hq0 (hq q0)
        have hedge : ∀ d : Fin k → ℤ, OnShell d (s + 1) → ∀ j l,
            ref' < ndist (L.points j + comb L.vectors d) (L.points l) :=
          fun d hd j l => hfar d ((mem_edge s d).2 hd) j l
        rcases lt_or_eq_of_le (show s + 1 ≤ |c q| by omega) with hlt | heq
        · by_cases hs1 : s = -1
          · have := hedge 0 ⟨fun i => by simp [hs1], q0, by simp [hs1]⟩ i i
            rw [comb_zero, add_zero, ndist_self] at this
            linarith
          · obtain ⟨d, hd, j, l, hjl⟩ := hall (s + 1) q (by omega) hlt
            linarith [hedge d hd j l]
        · rw [← heq] at hcq
          have := hedge c hcq i i
          have := hmax i
          linarith
      rw [hmatch _ ((mem_box s c).2 hbox)]
  · rintro ⟨t, q, ht1, htq, hfart⟩
    have hk : k ≠ 0 := fun h => by subst h; exact q.elim0
    unfold decompose
    dsimp only
    rw [hmiss _ (fun hc => by have := (h3.1 hc) q; omega), href]
    dsimp only
    obtain ⟨s, hs⟩ := guessScope_terminates hb hk hn ref'
    rw [hs]
    dsimp only
    obtain ⟨_, _, hs0, _, hfirst⟩ := guessScope_ok hs
    have hst : s ≤ t - 1 := by
      by_contra hcon
      push Not at hcon
      refine hfirst (t - 1) (by omega) hcon fun d hd j l => ?_
      rw [mem_edge, show t - 1 + 1 = t by ring] at hd
      exact hfart d hd j l
    rw [hmiss _ fun hc => by have := (mem_box s c).1 hc q; omega]

end Verif.Latt
