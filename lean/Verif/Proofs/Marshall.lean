import Verif.Proofs.Perron
import Verif.Proofs.SpaceGroup
import Verif.Proofs.Antiferromagnet
import Mathlib.GroupTheory.Perm.ClosureSwap
/-!
# Lemmas for C131: the signs of the exchange terms, and the states they connect
-/

namespace Verif.LDB

open Verif.Spec Matrix

variable {n : ℕ}

/-- The states after the spins `i` and `j` are exchanged. -/
noncomputable def swapped (i j : Fin n) : Equiv.Perm (Fin (2 ^ n)) := spinPerm (Equiv.swap i j)

theorem config_ext {a b : Fin (2 ^ n)} (h : ∀ k : Fin n, digit a k = digit b k) : a = b :=
  Fin.ext (eq_of_digits n a b a.2 b.2 fun j hj => h ⟨j, hj⟩)

theorem digit_spinPerm (g : Equiv.Perm (Fin n)) (a : Fin (2 ^ n)) (k : Fin n) :
    digit (spinPerm g a) k = digit a (g.symm k : Fin n) := by
  have := spinPerm_moves g a (g.symm k)
  rwa [Equiv.apply_symm_apply] at this

theorem digit_swapped (i j : Fin n) (a : Fin (2 ^ n)) (k : Fin n) :
    digit (swapped i j a) k = digit a (Equiv.swap i j k : Fin n) := by
  unfold swapped
  rw [digit_spinPerm, Equiv.symm_swap]

theorem swapped_swapped (i j : Fin n) (a : Fin (2 ^ n)) : swapped i j (swapped i j a) = a :=
  config_ext fun k => by rw [digit_swapped, digit_swapped, Equiv.swap_apply_self]

theorem spinPerm_mul (g h : Equiv.Perm (Fin n)) (a : Fin (2 ^ n)) : spinPerm (g * h) a = spinPerm g (spinPerm h a) :=
  config_ext fun k => by
    rw [digit_spinPerm, digit_spinPerm, digit_spinPerm]
    rfl

theorem spinPerm_one (a : Fin (2 ^ n)) : spinPerm (1 : Equiv.Perm (Fin n)) a = a :=
  config_ext fun k => by
    rw [digit_spinPerm]
    rfl

/-- The exchange of two spins. -/
theorem spinDot_entry {i j : Fin n} (hij : i ≠ j) (a c : Fin (2 ^ n)) :
    spinDot n i j a c = (if swapped i j c = a then (1 / 2 : ℂ) else 0) - if a = c then 1 / 4 else 0 := by
  classical
  have hij' : (i : ℕ) ≠ j := fun h => hij (Fin.ext h)
  unfold spinDot
  rw [Matrix.add_apply, Matrix.add_apply, siteOp_mul_ne n i j j.2 hij', siteOp_mul_ne n i j j.2 hij',
    siteOp_mul_ne n i j j.2 hij']
  by_cases h : ∀ k < n, k ≠ i → k ≠ j → digit a k = digit c k
  · rw [if_pos h, if_pos h, if_pos h]
    have e1 : swapped i j c = a ↔ digit a i = digit c j ∧ digit a j = digit c i := by
      constructor
      · rintro rfl
        rw [digit_swapped, digit_swapped, Equiv.swap_apply_left, Equiv.swap_apply_right]
        exact ⟨rfl, rfl⟩
      · rintro ⟨h1, h2⟩
        refine config_ext fun k => ?_
        rw [digit_swapped]
        by_cases hk : k = i
        · rw [hk, Equiv.swap_apply_left, h1]
        · by_cases hk' : k = j
          · rw [hk', Equiv.swap_apply_right, h2]
          · rw [Equiv.swap_apply_of_ne_of_ne hk hk', h k k.2 (fun e => hk (Fin.ext e)) fun e => hk' (Fin.ext e)]
    have e2 : a = c ↔ digit a i = digit c i ∧ digit a j = digit c j := by
      constructor
      · rintro rfl
        exact ⟨rfl, rfl⟩
      · rintro ⟨h1, h2⟩
        refine config_ext fun k => ?_
        by_cases hk : k = i
        · rw [hk, h1]
        · by_cases hk' : k = j
          · rw [hk', h2]
          · exact h k k.2 (fun e => hk (Fin.ext e)) fun e => hk' (Fin.ext e)
    simp only [e1, e2]
    generalize digit a i = p
    generalize digit a j = q
    generalize digit c i = r
    generalize digit c j = s
    have hI := Complex.I_mul_I
    fin_cases p <;> fin_cases q <;> fin_cases r <;> fin_cases s <;> simp [spinHalf] <;>
      first
      | (norm_num; done)
      | (linear_combination (-(1 / 4 : ℂ)) * hI)
      | (linear_combination ((1 / 4 : ℂ)) * hI)
  · rw [if_neg h, if_neg h, if_neg h, if_neg, if_neg]
    · simp
    · rintro rfl
      exact h fun _ _ _ _ => rfl
    · rintro rfl
      refine h fun k hk h1 h2 => ?_
      have := digit_swapped i j c ⟨k, hk⟩
      rw [Equiv.swap_apply_of_ne_of_ne (fun e => h1 (congrArg Fin.val e)) fun e => h2 (congrArg Fin.val e)] at this
      exact this

/-- How many spins are down. -/
def downs (a : Fin (2 ^ n)) : ℕ := (Finset.univ.filter fun i : Fin n => digit a i = 1).card

theorem downs_spinPerm (g : Equiv.Perm (Fin n)) (a : Fin (2 ^ n)) : downs (spinPerm g a) = downs a := by
  unfold downs
  refine Finset.card_equiv g.symm fun i => ?_
  simp only [Finset.mem_filter, Finset.mem_univ, true_and, digit_spinPerm]

theorem exists_perm {a c : Fin (2 ^ n)} (h : downs a = downs c) : ∃ g : Equiv.Perm (Fin n), spinPerm g c = a := by
  classical
  have h1 : Fintype.card {i : Fin n // digit c i = 1} = Fintype.card {i : Fin n // digit a i = 1} := by
    rw [Fintype.card_subtype, Fintype.card_subtype]
    exact h.symm
  have h2 : Fintype.card {i : Fin n // ¬ digit c i = 1} = Fintype.card {i : Fin n // ¬ digit a i = 1} := by
    rw [Fintype.card_subtype_compl, Fintype.card_subtype_compl, h1]
  let e1 := Fintype.equivOfCardEq h1
  let e2 := Fintype.equivOfCardEq h2
  refine ⟨Equiv.subtypeCongr e1 e2, config_ext fun k => ?_⟩
  obtain ⟨i, rfl⟩ := (Equiv.subtypeCongr e1 e2).surjective k
  rw [digit_spinPerm, Equiv.symm_apply_apply]
  by_cases hi : digit c i = 1
  · have : digit a ((Equiv.subtypeCongr e1 e2 i : Fin n) : ℕ) = 1 := by
      simp only [Equiv.subtypeCongr, Equiv.trans_apply, Equiv.sumCompl_symm_apply_of_pos (p := fun i : Fin n => digit c i = 1) hi]
      exact (e1 ⟨i, hi⟩).2
    rw [this, hi]
  · have : ¬ digit a ((Equiv.subtypeCongr e1 e2 i : Fin n) : ℕ) = 1 := by
      simp only [Equiv.subtypeCongr, Equiv.trans_apply, Equiv.sumCompl_symm_apply_of_neg (p := fun i : Fin n => digit c i = 1) hi]
      exact (e2 ⟨i, hi⟩).2
    revert hi this
    generalize digit c i = p
    generalize digit a _ = q
    revert p q
    decide

/-- The sign of a state: one factor -1 for every spin of the sublattice `A` that is down. -/
noncomputable def sgn (A : Fin n → Prop) [DecidablePred A] (a : Fin (2 ^ n)) : ℝ :=
  ∏ i : Fin n with A i, if digit a i = 0 then 1 else -1

variable {A : Fin n → Prop} [DecidablePred A]

theorem sgn_sq (a : Fin (2 ^ n)) : sgn A a * sgn A a = 1 := by
  unfold sgn
  rw [← Finset.prod_mul_distrib]
  refine Finset.prod_eq_one fun i _ => ?_
  split <;> norm_num

/-- One spin is changed. -/
theorem sgn_change {a c : Fin (2 ^ n)} {i : Fin n} (hi : digit a i ≠ digit c i)
    (h : ∀ k, k ≠ i → A k → digit a k = digit c k) : sgn A a = if A i then -sgn A c else sgn A c := by
  unfold sgn
  split
  · rename_i hA
    have hm : i ∈ Finset.univ.filter A := by simpa using hA
    rw [← Finset.mul_prod_erase _ _ hm, ← Finset.mul_prod_erase _ _ hm, ← neg_mul]
    congr 1
    · revert hi
      generalize digit a i = p
      generalize digit c i = q
      fin_cases p <;> fin_cases q <;> simp
    · refine Finset.prod_congr rfl fun k hk => ?_
      rw [Finset.mem_erase, Finset.mem_filter] at hk
      rw [h k hk.1 hk.2.2]
  · rename_i hA
    refine Finset.prod_congr rfl fun k hk => ?_
    rw [Finset.mem_filter] at hk
    rw [h k (fun e => hA (e ▸ hk.2)) hk.2]

/-- Exchange of two spins. -/
theorem sgn_swapped {i j : Fin n} {c : Fin (2 ^ n)} (h : digit c i ≠ digit c j) :
    sgn A (swapped i j c) = if (A i ↔ A j) then sgn A c else -sgn A c := by
  have key : ∀ i j : Fin n, digit c i ≠ digit c j → A i → ¬ A j → sgn A (swapped i j c) = -sgn A c := by
    intro i j h hi hj
    have := sgn_change (A := A) (a := swapped i j c) (c := c) (i := i)
      (by rw [digit_swapped, Equiv.swap_apply_left]; exact h.symm) fun k hk hA => by
        rw [digit_swapped, Equiv.swap_apply_of_ne_of_ne hk fun e : k = j => hj (by rw [← e]; exact hA)]
    rwa [if_pos hi] at this
  by_cases hi : A i <;> by_cases hj : A j
  · rw [if_pos (by simp [hi, hj])]
    have h1 : sgn A (swapped i j c) = ∏ k : Fin n with A k, if digit c (Equiv.swap i j k : Fin n) = 0 then (1 : ℝ) else -1 := by
      unfold sgn
      simp only [digit_swapped]
    rw [h1]
    unfold sgn
    refine Finset.prod_equiv (Equiv.swap i j) (fun k => ?_) fun k _ => rfl
    simp only [Finset.mem_filter, Finset.mem_univ, true_and]
    by_cases hk : k = i
    · rw [hk, Equiv.swap_apply_left]; tauto
    · by_cases hk' : k = j
      · rw [hk', Equiv.swap_apply_right]; tauto
      · rw [Equiv.swap_apply_of_ne_of_ne hk hk']
  · rw [if_neg (by tauto), key i j h hi hj]
  · rw [if_neg (by tauto), show swapped i j c = swapped j i c by unfold swapped; rw [Equiv.swap_comm],
      key j i h.symm hj hi]
  · rw [if_pos (by tauto)]
    unfold sgn
    refine Finset.prod_congr rfl fun k hk => ?_
    rw [Finset.mem_filter] at hk
    rw [digit_swapped, Equiv.swap_apply_of_ne_of_ne (fun e : k = i => hi (by rw [← e]; exact hk.2))
      fun e : k = j => hj (by rw [← e]; exact hk.2)]

theorem swapped_of_eq {i j : Fin n} {c : Fin (2 ^ n)} (h : digit c i = digit c j) : swapped i j c = c := by
  refine config_ext fun k => ?_
  rw [digit_swapped]
  by_cases hk : k = i
  · rw [hk, Equiv.swap_apply_left, h]
  · by_cases hk' : k = j
    · rw [hk', Equiv.swap_apply_right, h]
    · rw [Equiv.swap_apply_of_ne_of_ne hk hk']

/-! ### The Hamiltonian of a list of pairs -/

/-- The exchange of all pairs. -/
noncomputable def pairSum (J : ℝ) (l : List (Fin n × Fin n)) : Matrix (Fin (2 ^ n)) (Fin (2 ^ n)) ℂ :=
  (l.map fun b => (J : ℂ) • spinDot n b.1 b.2).sum

/-- The pairs whose exchange carries `c` to `a`. -/
noncomputable def exchanges (J : ℝ) (l : List (Fin n × Fin n)) (a c : Fin (2 ^ n)) : ℝ :=
  (l.map fun b => if swapped b.1 b.2 c = a then J / 2 else 0).sum

theorem pairSum_off {J : ℝ} (hJ : 0 ≤ J) {l : List (Fin n × Fin n)} (hl : ∀ b ∈ l, b.1 ≠ b.2 ∧ ¬ (A b.1 ↔ A b.2)) :
    OffSigns (pairSum J l) (sgn A) (exchanges J l) := by
  refine ⟨sgn_sq, fun a c hac => ⟨List.sum_nonneg fun x hx => ?_, ?_⟩⟩
  · obtain ⟨b, -, rfl⟩ := List.mem_map.1 hx
    split <;> linarith
  · unfold pairSum exchanges
    rw [list_sum_apply]
    induction l with
    | nil => simp
    | cons b l ih =>
      simp only [List.map_cons, List.sum_cons]
      rw [ih fun b' hb' => hl b' (List.mem_cons_of_mem _ hb'), Matrix.smul_apply,
        spinDot_entry (hl b List.mem_cons_self).1, if_neg hac, sub_zero, smul_eq_mul]
      by_cases h : swapped b.1 b.2 c = a
      · rw [if_pos h, if_pos h]
        have hd : digit c b.1 ≠ digit c b.2 := fun e => hac (by rw [← h, swapped_of_eq e])
        have hs := sgn_swapped (A := A) hd
        rw [h, if_neg (hl b List.mem_cons_self).2] at hs
        rw [hs]
        have := sgn_sq (A := A) c
        push_cast
        have h' : (sgn A c : ℂ) * sgn A c = 1 := by exact_mod_cast this
        linear_combination (-(J / 2) : ℂ) * h'
      · rw [if_neg h, if_neg h]
        simp

theorem exchanges_symm (J : ℝ) (l : List (Fin n × Fin n)) (a c : Fin (2 ^ n)) : exchanges J l a c = exchanges J l c a := by
  unfold exchanges
  congr 1
  refine List.map_congr_left fun b _ => ?_
  congr 1
  refine propext ⟨?_, ?_⟩ <;>
  · rintro rfl
    exact swapped_swapped _ _ _

theorem exchanges_ne {J : ℝ} (hJ : 0 < J) {l : List (Fin n × Fin n)} {b : Fin n × Fin n} (hb : b ∈ l) (c : Fin (2 ^ n)) :
    exchanges J l (swapped b.1 b.2 c) c ≠ 0 := by
  have h1 : (if swapped b.1 b.2 c = swapped b.1 b.2 c then J / 2 else 0) ≤ exchanges J l (swapped b.1 b.2 c) c := by
    unfold exchanges
    refine List.single_le_sum (fun x hx => ?_) _ (List.mem_map.2 ⟨b, hb, rfl⟩)
    obtain ⟨b, -, rfl⟩ := List.mem_map.1 hx
    split <;> linarith
  rw [if_pos rfl] at h1
  intro h0
  linarith

/-- The points are connected by the pairs. -/
def Linked (l : List (Fin n × Fin n)) : Prop :=
  ∀ i j : Fin n, Relation.ReflTransGen (fun i j => (i, j) ∈ l ∨ (j, i) ∈ l) i j

theorem swaps_generate {l : List (Fin n × Fin n)} (hne : ∀ b ∈ l, b.1 ≠ b.2) (hl : Linked l) :
    Subgroup.closure {g : Equiv.Perm (Fin n) | ∃ b ∈ l, g = Equiv.swap b.1 b.2} = ⊤ := by
  have : MulAction.IsPretransitive
      (Subgroup.closure {g : Equiv.Perm (Fin n) | ∃ b ∈ l, g = Equiv.swap b.1 b.2}) (Fin n) := by
    refine ⟨fun i j => ?_⟩
    induction hl i j with
    | refl => exact ⟨1, one_smul _ _⟩
    | tail _ hs ih =>
      obtain ⟨g, hg⟩ := ih
      rename_i p q _
      rcases hs with hs | hs
      · refine ⟨⟨Equiv.swap p q, Subgroup.subset_closure ⟨_, hs, rfl⟩⟩ * g, ?_⟩
        rw [mul_smul, hg]
        exact Equiv.swap_apply_left _ _
      · refine ⟨⟨Equiv.swap q p, Subgroup.subset_closure ⟨_, hs, rfl⟩⟩ * g, ?_⟩
        rw [mul_smul, hg]
        exact Equiv.swap_apply_right _ _
  refine closure_of_isSwap_of_isPretransitive ?_
  rintro g ⟨b, hb, rfl⟩
  exact ⟨b.1, b.2, hne b hb, rfl⟩

/-- All states with the same number of spins down are connected. -/
theorem states_connected {J : ℝ} (hJ : 0 < J) {l : List (Fin n × Fin n)} (hne : ∀ b ∈ l, b.1 ≠ b.2) (hl : Linked l)
    {a c : Fin (2 ^ n)} (h : downs a = downs c) :
    Relation.ReflTransGen (fun a b => a ≠ b ∧ exchanges J l a b ≠ 0) a c := by
  set R : Fin (2 ^ n) → Fin (2 ^ n) → Prop := Relation.ReflTransGen fun a b => a ≠ b ∧ exchanges J l a b ≠ 0 with hR
  have symm : ∀ a b, R a b → R b a := by
    intro a b hab
    induction hab with
    | refl => exact Relation.ReflTransGen.refl
    | tail _ hs ih => exact Relation.ReflTransGen.head ⟨hs.1.symm, by rw [exchanges_symm]; exact hs.2⟩ ih
  obtain ⟨g, rfl⟩ := exists_perm h
  have hg : g ∈ Subgroup.closure {g : Equiv.Perm (Fin n) | ∃ b ∈ l, g = Equiv.swap b.1 b.2} := by
    rw [swaps_generate hne hl]
    trivial
  clear h
  revert c
  induction hg using Subgroup.closure_induction with
  | mem g hg =>
    obtain ⟨b, hb, rfl⟩ := hg
    intro c
    by_cases hc : swapped b.1 b.2 c = c
    · change R (swapped b.1 b.2 c) c
      rw [hc]
    · exact Relation.ReflTransGen.single ⟨hc, exchanges_ne hJ hb c⟩
  | one =>
    intro c
    rw [spinPerm_one]
  | mul g h _ _ ihg ihh =>
    intro c
    rw [spinPerm_mul]
    exact ihg.trans ihh
  | inv g _ ih =>
    intro c
    have := symm _ _ (ih (c := spinPerm g⁻¹ c))
    rwa [← spinPerm_mul, mul_inv_cancel, spinPerm_one] at this

/-- The number of spins down is conserved. -/
theorem pairSum_sectors (J : ℝ) {l : List (Fin n × Fin n)} (hne : ∀ b ∈ l, b.1 ≠ b.2) {a c : Fin (2 ^ n)}
    (h : downs a ≠ downs c) : pairSum J l a c = 0 := by
  unfold pairSum
  rw [list_sum_apply]
  refine List.sum_eq_zero fun x hx => ?_
  obtain ⟨b, hb, rfl⟩ := List.mem_map.1 hx
  rw [Matrix.smul_apply, spinDot_entry (hne b hb), if_neg, if_neg]
  · simp
  · rintro rfl
    exact h rfl
  · rintro rfl
    exact h (downs_spinPerm _ _)

end Verif.LDB
