import Verif.Proofs.Normalize
/-!
# C10, C11: `ParticleTerm.normalize`
-/

namespace Verif
open Spec

/-- **C10.** If `normalize(aocs)` returns `(norm, n)` then `norm` is a permutation of `aocs` in
ascending AoC order (by C06: creators left with ascending states, annihilators right with descending
states) and `n` is the number of pairs that were out of order. -/
theorem C10_normalize_sorts (aocs norm : List AoC) (n : ℕ) (h : normalize aocs = .ok (norm, n)) :
    aocs.Perm norm ∧ norm.Pairwise (fun a b => a.le b = true) ∧ n = inversions aocs := by
  have hsw := (normOuter_swaps aocs.length aocs 0 (Nat.le_refl _)).1 norm n h
  have hsort := normOuter_sorted aocs.length aocs [] 0 rfl List.Pairwise.nil (by simp) norm n
    (by simpa [normalize] using h)
  refine ⟨hsw.perm, hsort.imp (fun {a b} hab => (aoc_le_iff a b).mpr hab), ?_⟩
  have hinv := hsw.inversions
  have h0 : inversions norm = 0 := by
    clear hinv hsw h
    induction hsort with
    | nil => rfl
    | cons hx _ ih =>
      rename_i x l _
      simp only [inversions, ih, Nat.add_zero, List.length_eq_zero_iff, List.filter_eq_nil_iff]
      intro y hy
      rw [aoc_gt_iff]
      exact not_lt.mpr (hx y hy)
  omega

/-- **C11.** `normalize` raises `SwapFermionError` exactly when somewhere an annihilation operator
stands to the left of the creation operator of the same single-particle state (and then the error
carries such a pair); it raises nothing else, and otherwise returns. -/
theorem C11_normalize_raises_iff (aocs : List AoC) :
    (AnnihilatorBeforeCreator aocs ↔ ∃ a c, normalize aocs = .error (.swapFermion a c)) ∧
    (∀ e, normalize aocs = .error e → ∃ a c, e = .swapFermion a c ∧
      a.otype = .annihilation ∧ c.otype = .creation ∧ a.state.hashKey = c.state.hashKey ∧
      a ∈ aocs ∧ c ∈ aocs) ∧
    (¬ AnnihilatorBeforeCreator aocs → ∃ norm n, normalize aocs = .ok (norm, n)) := by
  have hspec := normOuter_swaps aocs.length aocs 0 (Nat.le_refl _)
  have herr : ∀ e, normalize aocs = .error e → AnnihilatorBeforeCreator aocs ∧
      ∃ a c, e = .swapFermion a c ∧
      a.otype = .annihilation ∧ c.otype = .creation ∧ a.state.hashKey = c.state.hashKey ∧
      a ∈ aocs ∧ c ∈ aocs := by
    intro e he
    obtain ⟨x, y, pre, post, c', rfl, hs, hg, hk⟩ := hspec.2 e he
    have ho := gt_same_state hg hk
    refine ⟨?_, x, y, rfl, ho.1, ho.2, hk, ?_, ?_⟩
    · rw [hs.annBefore, annBefore_iff]
      refine ⟨x, y, ?_, ho.1, ho.2, hk⟩
      apply List.Sublist.trans _ (List.sublist_append_right _ _)
      exact .cons_cons _ (.cons_cons _ (List.nil_sublist _))
    · exact hs.perm.mem_iff.mpr (by simp)
    · exact hs.perm.mem_iff.mpr (by simp)
  have hok : ∀ norm n, normalize aocs = .ok (norm, n) → ¬ AnnihilatorBeforeCreator aocs := by
    intro norm n h hbad
    have hsw := hspec.1 norm n h
    have hsorted := (C10_normalize_sorts aocs norm n h).2.1
    rw [hsw.annBefore, annBefore_iff] at hbad
    obtain ⟨a, b, hsub, ha, hb, -⟩ := hbad
    have := hsorted.sublist hsub
    simp only [List.pairwise_cons, List.mem_singleton, forall_eq, List.not_mem_nil,
      false_implies, implies_true, List.Pairwise.nil, and_true] at this
    rcases a with ⟨_, s⟩
    rcases b with ⟨_, t⟩
    simp only at ha hb
    subst ha hb
    simp [AoC.le, AoC.lt, AoC.eq, AoC.hashKey] at this
  refine ⟨⟨?_, ?_⟩, fun e he => (herr e he).2, ?_⟩
  · intro hbad
    cases hn : normalize aocs with
    | ok r => exact absurd hbad (hok r.1 r.2 hn)
    | error e =>
      obtain ⟨-, a, c, rfl, -⟩ := herr e hn
      exact ⟨a, c, rfl⟩
  · rintro ⟨a, c, h⟩
    exact (herr _ h).1
  · intro hbad
    cases hn : normalize aocs with
    | ok r => exact ⟨r.1, r.2, rfl⟩
    | error e => exact absurd (herr e hn).1 hbad

/-- Non-vacuity: a two-body term that is reordered, and one that raises. -/
example :
    let s (k : ℤ) : StateID := ⟨[.int k], 0, 0, [10000 * k]⟩
    normalize [⟨.annihilation, s 0⟩, ⟨.creation, s 2⟩, ⟨.annihilation, s 3⟩, ⟨.creation, s 1⟩] =
      .ok ([⟨.creation, s 1⟩, ⟨.creation, s 2⟩, ⟨.annihilation, s 3⟩, ⟨.annihilation, s 0⟩], 5) ∧
    normalize [⟨.annihilation, s 0⟩, ⟨.creation, s 2⟩, ⟨.creation, s 0⟩] =
      .error (.swapFermion ⟨.annihilation, s 0⟩ ⟨.creation, s 0⟩) := by
  refine ⟨rfl, rfl⟩

end Verif
