import Verif.Spec.NearestBonds
import Verif.Proofs.LatticeBuilt
import Verif.Props.LatticeNeighbor
/-!
Helper lemmas: the nearest-neighbour bonds of a periodic lattice (for C94).
-/

namespace Verif.LDB

open Verif.Latt

variable {n m k : ℕ} {S : Set (Pt m)} {points : Fin n → Pt m} {v : Fin k → Pt m}

theorem tiling_inj (h : ExactTiling S points v) {i j : Fin n} {a b : Fin k → ℤ}
    (e : points i + comb v a = points j + comb v b) : i = j ∧ a = b := by
  obtain ⟨q, _, hu⟩ := h.covers _ (h.inside i a)
  have h1 := hu (i, a) rfl
  have h2 := hu (j, b) e
  rw [← h2] at h1
  exact Prod.ext_iff.1 h1

theorem sameBond_iff (h : ExactTiling S points v) {i j i' j' : Fin n} {c a b : Fin k → ℤ} :
    SameBond v (points i, points j + comb v c) (points i' + comb v a, points j' + comb v b) ↔
      (i = i' ∧ j = j' ∧ c = b - a) ∨ (i = j' ∧ j = i' ∧ c = a - b) := by
  unfold SameBond
  dsimp only
  constructor
  · rintro ⟨e, ⟨h1, h2⟩ | ⟨h1, h2⟩⟩
    · rw [add_assoc, ← comb_add] at h2
      obtain ⟨r1, r2⟩ := tiling_inj h h1
      obtain ⟨r3, r4⟩ := tiling_inj h h2
      exact Or.inl ⟨r1, r3, by rw [← r2, ← r4]; abel⟩
    · rw [add_assoc, ← comb_add] at h2
      obtain ⟨r1, r2⟩ := tiling_inj h h1
      obtain ⟨r3, r4⟩ := tiling_inj h h2
      exact Or.inr ⟨r1, r3, by rw [← r2, ← r4]; abel⟩
  · rintro (⟨rfl, rfl, rfl⟩ | ⟨rfl, rfl, rfl⟩)
    · refine ⟨a, Or.inl ⟨rfl, ?_⟩⟩
      rw [add_assoc, ← comb_add, sub_add_cancel]
    · refine ⟨b, Or.inr ⟨rfl, ?_⟩⟩
      rw [add_assoc, ← comb_add, sub_add_cancel]

theorem mem_intraBonds {P : ℝ → Prop} {b : Pt m × Pt m} :
    b ∈ intraBonds points P ↔ ∃ i j, i < j ∧ P (ndist (points i) (points j)) ∧
      b = (points i, points j) := by
  classical
  unfold intraBonds
  simp only [List.mem_map, List.mem_filter, mem_prod, List.mem_finRange, true_and, decide_eq_true_iff,
    and_self]
  constructor
  · rintro ⟨⟨i, j⟩, ⟨h1, h2⟩, rfl⟩; exact ⟨i, j, h1, h2, rfl⟩
  · rintro ⟨i, j, h1, h2, rfl⟩; exact ⟨⟨i, j⟩, ⟨h1, h2⟩, rfl⟩

theorem mem_interBonds {P : ℝ → Prop} {H : List (Fin k → ℤ)} {g : (Fin k → ℤ) → Fin n → Pt m}
    {b : Pt m × Pt m} :
    b ∈ interBonds points v H P g ↔ ∃ c ∈ H, ∃ i j, P (ndist (points i) (points j + comb v c)) ∧
      b = (points i, g c j) := by
  classical
  unfold interBonds
  simp only [List.mem_map, List.mem_filter, mem_prod, List.mem_finRange, decide_eq_true_iff, and_true]
  constructor
  · rintro ⟨⟨c, i, j⟩, ⟨h1, h2⟩, rfl⟩; exact ⟨c, h1, i, j, h2, rfl⟩
  · rintro ⟨c, h1, i, j, h2, rfl⟩; exact ⟨⟨c, i, j⟩, ⟨h1, h2⟩, rfl⟩

/-- The bonds from a half box of translations are all the bonds of the wanted lengths, each once. -/
theorem listsBonds_of_half (h : ExactTiling S points v) {P Q : ℝ → Prop} {H : List (Fin k → ℤ)}
    (hP : ∀ s ∈ S, ∀ t ∈ S, s ≠ t → (P (ndist s t) ↔ Q (ndist s t))) (hd : ¬ Q 0)
    (hH : H.Nodup) (hH0 : ∀ c ∈ H, c ≠ 0)
    (half : ∀ i j, ∀ c : Fin k → ℤ, c ≠ 0 → Q (ndist (points i) (points j + comb v c)) →
      (c ∈ H ∧ -c ∉ H) ∨ (c ∉ H ∧ -c ∈ H)) :
    ListsBonds S points v Q (intraBonds points P)
      (interBonds points v H P fun c j => points j + comb v c) := by
  classical
  have site0 : ∀ i, points i ∈ S := fun i => by
    have := h.inside i 0; rwa [comb_zero, add_zero] at this
  have inj0 : ∀ {i j : Fin n} {c}, points i = points j + comb v c → i = j ∧ c = 0 := by
    intro i j c e
    have e' : points i + comb v 0 = points j + comb v c := by rw [comb_zero, add_zero]; exact e
    obtain ⟨h1, h2⟩ := tiling_inj h e'
    exact ⟨h1, h2.symm⟩
  have injp : Function.Injective points := fun i j e => by
    have e' : points i = points j + comb v 0 := by rw [comb_zero, add_zero]; exact e
    exact (inj0 e').1
  have ne0 : ∀ {i j : Fin n} {c}, (c ≠ 0 ∨ i ≠ j) → points i ≠ points j + comb v c := by
    intro i j c hc e
    obtain ⟨h1, h2⟩ := inj0 e
    rcases hc with hc | hc
    · exact hc h2
    · exact hc h1
  refine ⟨?_, ?_, ?_, ?_⟩
  · intro b hb
    obtain ⟨i, j, h1, h2, rfl⟩ := mem_intraBonds.1 hb
    exact ⟨⟨i, rfl⟩, ⟨j, rfl⟩, (hP _ (site0 i) _ (site0 j) (injp.ne h1.ne)).1 h2⟩
  · intro b hb
    obtain ⟨c, hc, i, j, h2, rfl⟩ := mem_interBonds.1 hb
    refine ⟨⟨i, rfl⟩, h.inside j c, fun j' e => ?_, ?_⟩
    · exact hH0 c hc (inj0 e.symm).2
    · exact (hP _ (site0 i) _ (h.inside j c) (ne0 (Or.inl (hH0 c hc)))).1 h2
  · rw [List.nodup_append]
    refine ⟨?_, ?_, ?_⟩
    · unfold intraBonds
      refine List.Nodup.map_on ?_ (((List.nodup_finRange n).product (List.nodup_finRange n)).filter _)
      rintro ⟨i, j⟩ _ ⟨i', j'⟩ _ e
      obtain ⟨e1, e2⟩ := Prod.ext_iff.1 e
      exact Prod.ext (injp e1) (injp e2)
    · unfold interBonds
      refine List.Nodup.map_on ?_
        ((hH.product ((List.nodup_finRange n).product (List.nodup_finRange n))).filter _)
      rintro ⟨c, i, j⟩ _ ⟨c', i', j'⟩ _ e
      obtain ⟨e1, e2⟩ := Prod.ext_iff.1 e
      obtain ⟨e3, e4⟩ := tiling_inj h e2
      have e1' := injp e1
      dsimp only at e1' e3 e4
      rw [e1', e3, e4]
    · intro b hb b' hb' e
      subst e
      obtain ⟨i, j, _, _, rfl⟩ := mem_intraBonds.1 hb
      obtain ⟨c, hc, i', j', _, e⟩ := mem_interBonds.1 hb'
      exact hH0 c hc (inj0 (Prod.ext_iff.1 e).2).2
  · intro s hs t ht hst
    obtain ⟨⟨i, a⟩, hq, -⟩ := h.covers s hs
    obtain ⟨⟨j, b⟩, hq', -⟩ := h.covers t ht
    dsimp only at hq hq'
    subst hq hq'
    -- the triples in the list
    have mem : ∀ x : Pt m × Pt m, x ∈ intraBonds points P ++
        interBonds points v H P (fun c j => points j + comb v c) ↔
        ∃ i j c, ((c = 0 ∧ i < j) ∨ c ∈ H) ∧ Q (ndist (points i) (points j + comb v c)) ∧
          x = (points i, points j + comb v c) := by
      intro x
      rw [List.mem_append, mem_intraBonds, mem_interBonds]
      constructor
      · rintro (⟨i, j, h1, h2, rfl⟩ | ⟨c, hc, i, j, h2, rfl⟩)
        · refine ⟨i, j, 0, Or.inl ⟨rfl, h1⟩, ?_, ?_⟩
          · rw [comb_zero, add_zero]
            exact (hP _ (site0 i) _ (site0 j) (injp.ne h1.ne)).1 h2
          · rw [comb_zero, add_zero]
        · exact ⟨i, j, c, Or.inr hc,
            (hP _ (site0 i) _ (h.inside j c) (ne0 (Or.inl (hH0 c hc)))).1 h2, rfl⟩
      · rintro ⟨i, j, c, (⟨rfl, h1⟩ | hc), h2, rfl⟩
        · left
          rw [comb_zero, add_zero] at h2 ⊢
          exact ⟨i, j, h1, (hP _ (site0 i) _ (site0 j) (injp.ne h1.ne)).2 h2, rfl⟩
        · right
          exact ⟨c, hc, i, j,
            (hP _ (site0 i) _ (h.inside j c) (ne0 (Or.inl (hH0 c hc)))).2 h2, rfl⟩
    have hdist : Q (ndist (points i) (points j + comb v (b - a))) := by
      convert hst using 1
      rw [ndist_eq, ndist_eq, comb_sub]; congr 1; abel
    have hdist' : Q (ndist (points j) (points i + comb v (a - b))) := by
      convert hst using 1
      rw [ndist_comm, ndist_eq, ndist_eq, comb_sub]; congr 1; abel
    -- exactly one of the two representatives is in the list
    have excl : ((b - a = 0 ∧ i < j ∨ b - a ∈ H) ∧ ¬ (a - b = 0 ∧ j < i ∨ a - b ∈ H)) ∨
        (¬ (b - a = 0 ∧ i < j ∨ b - a ∈ H) ∧ (a - b = 0 ∧ j < i ∨ a - b ∈ H)) := by
      by_cases hab : b - a = 0
      · have hba : a - b = 0 := by rw [← neg_sub, hab, neg_zero]
        have hn : (0 : Fin k → ℤ) ∉ H := fun h0 => hH0 0 h0 rfl
        have hij : i ≠ j := by
          rintro rfl
          rw [hab, comb_zero, add_zero, ndist_self] at hdist
          exact hd hdist
        rw [hab, hba]
        rcases lt_or_gt_of_ne hij with h1 | h1
        · exact Or.inl ⟨Or.inl ⟨rfl, h1⟩, fun h2 => h2.elim (fun h3 => absurd h3.2 h1.asymm) hn⟩
        · exact Or.inr ⟨fun h2 => h2.elim (fun h3 => absurd h3.2 h1.asymm) hn, Or.inl ⟨rfl, h1⟩⟩
      · have hba : a - b ≠ 0 := fun h0 => hab (by rw [← neg_sub, h0, neg_zero])
        have := half i j _ hab hdist
        rw [neg_sub] at this
        rcases this with ⟨h1, h2⟩ | ⟨h1, h2⟩
        · exact Or.inl ⟨Or.inr h1, fun h3 => h3.elim (fun h4 => hba h4.1) h2⟩
        · exact Or.inr ⟨fun h3 => h3.elim (fun h4 => hab h4.1) h1, Or.inr h2⟩
    rcases excl with ⟨h1, h2⟩ | ⟨h1, h2⟩
    · refine ⟨(points i, points j + comb v (b - a)), ⟨(mem _).2 ⟨i, j, _, h1, hdist, rfl⟩,
        (sameBond_iff h).2 (Or.inl ⟨rfl, rfl, rfl⟩)⟩, ?_⟩
      rintro x ⟨hx, hsame⟩
      obtain ⟨i', j', c, hc, _, rfl⟩ := (mem x).1 hx
      rcases (sameBond_iff h).1 hsame with ⟨rfl, rfl, rfl⟩ | ⟨rfl, rfl, rfl⟩
      · rfl
      · exact absurd hc h2
    · refine ⟨(points j, points i + comb v (a - b)), ⟨(mem _).2 ⟨j, i, _, h2, hdist', rfl⟩,
        (sameBond_iff h).2 (Or.inr ⟨rfl, rfl, rfl⟩)⟩, ?_⟩
      rintro x ⟨hx, hsame⟩
      obtain ⟨i', j', c, hc, _, rfl⟩ := (mem x).1 hx
      rcases (sameBond_iff h).1 hsame with ⟨rfl, rfl, rfl⟩ | ⟨rfl, rfl, rfl⟩
      · exact absurd hc h1
      · rfl

theorem ListsBonds.perm {P : ℝ → Prop} {intra inter intra' inter' : List (Pt m × Pt m)}
    (h : ListsBonds S points v P intra inter) (h1 : intra'.Perm intra) (h2 : inter'.Perm inter) :
    ListsBonds S points v P intra' inter' := by
  have hp := h1.append h2
  refine ⟨fun b hb => h.inside b (h1.mem_iff.1 hb), fun b hb => h.across b (h2.mem_iff.1 hb),
    hp.nodup_iff.2 h.nodup, fun s hs t ht hst => ?_⟩
  simp only [hp.mem_iff]
  exact h.each s hs t ht hst

end Verif.LDB
