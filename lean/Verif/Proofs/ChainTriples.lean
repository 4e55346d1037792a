import Verif.Proofs.ChainBonds
/-!
# Index pairs of the bonds of a chain
-/

namespace Verif.LDB

open Verif.Latt

variable {prec : ℕ}

section triples

open Classical in
theorem chain_intra {n nth : ℕ} (hnth : 1 ≤ nth) {P : ℝ → Prop}
    (hP : ∀ z : ℤ, z ≠ 0 → (P |(z : ℝ)| ↔ |z| = nth)) {points : Fin n → Pt 1}
    (hp : ∀ i, points i = ![((i : ℕ) : ℝ)]) :
    (intraBonds points P).Perm
      ((List.range (n - nth)).map fun a : ℕ => (![(a : ℝ)], ![(a : ℝ) + nth])) := by
  have hl : ((List.range (n - nth)).map fun a : ℕ => ((![(a : ℝ)], ![(a : ℝ) + nth]) : Pt 1 × Pt 1)) =
      (((List.finRange n).filter fun a : Fin n => decide ((a : ℕ) + nth < n)).map
        fun a : Fin n => if h : (a : ℕ) + nth < n then (a, (⟨a + nth, h⟩ : Fin n)) else (a, a)).map
          fun p : Fin n × Fin n => (points p.1, points p.2) := by
    have : List.range (n - nth) = ((List.finRange n).filter
        fun a : Fin n => decide ((a : ℕ) + nth < n)).map fun a : Fin n => (a : ℕ) := by
      refine List.Perm.eq_of_pairwise (le := (· < ·)) (fun _ _ _ _ h1 h2 => absurd h1 (lt_asymm h2))
        List.pairwise_lt_range ?_ ?_
      · rw [List.pairwise_map]
        exact ((List.pairwise_lt_finRange n).filter _).imp fun h => h
      · rw [List.perm_ext_iff_of_nodup List.nodup_range
          (((List.nodup_finRange n).filter _).map Fin.val_injective)]
        intro a
        rw [List.mem_range, List.mem_map]
        constructor
        · intro h
          exact ⟨⟨a, by omega⟩, by rw [List.mem_filter]; simp; omega, rfl⟩
        · rintro ⟨b, hb, rfl⟩
          rw [List.mem_filter] at hb
          simp at hb; omega
    rw [this, List.map_map, List.map_map]
    refine List.map_congr_left fun a ha => ?_
    rw [List.mem_filter] at ha
    have ha' : (a : ℕ) + nth < n := by simpa using ha.2
    simp only [Function.comp_apply, dif_pos ha', hp]
    push_cast
    rfl
  rw [hl]
  unfold intraBonds
  refine List.Perm.map _ ?_
  refine (List.perm_ext_iff_of_nodup
    (((List.nodup_finRange n).product (List.nodup_finRange n)).filter _)
    (List.Nodup.map_on (fun a ha b hb hab => by
      rw [List.mem_filter] at ha hb
      have ha' : (a : ℕ) + nth < n := by simpa using ha.2
      have hb' : (b : ℕ) + nth < n := by simpa using hb.2
      rw [dif_pos ha', dif_pos hb'] at hab
      exact (Prod.mk.inj hab).1) ((List.nodup_finRange n).filter _))).2 ?_
  rintro ⟨i, j⟩
  have hmem : (i, j) ∈ List.finRange n ×ˢ List.finRange n := by simp
  rw [List.mem_filter, List.mem_map, and_iff_right hmem]
  have hd : ndist (points i) (points j) = |(((i : ℕ) - (j : ℕ) : ℤ) : ℝ)| := by
    rw [hp, hp, ndist_pt]; push_cast; rfl
  simp only [List.mem_finRange, true_and,
    decide_eq_true_iff, hd, List.mem_filter]
  constructor
  · rintro ⟨h1, h2⟩
    have h1' : (i : ℕ) < j := h1
    rw [hP _ (by omega)] at h2
    have h3 : (i : ℕ) + nth = j := by
      rw [abs_of_neg (by omega)] at h2; omega
    refine ⟨i, by have := j.2; omega, ?_⟩
    rw [dif_pos (by have := j.2; omega)]
    exact Prod.ext rfl (Fin.ext h3)
  · rintro ⟨a, h1, h2⟩
    rw [dif_pos h1] at h2
    obtain ⟨rfl, rfl⟩ := Prod.mk.inj h2
    refine ⟨?_, ?_⟩
    · change (a : ℕ) < a + nth; omega
    · rw [hP _ (by push_cast; omega)]
      push_cast
      rw [abs_of_neg (by omega)]; ring

open Classical in
theorem chain_inter {n nth : ℕ} (hnth : 1 ≤ nth) {P : ℝ → Prop}
    (hP : ∀ z : ℤ, z ≠ 0 → (P |(z : ℝ)| ↔ |z| = nth)) {points : Fin n → Pt 1}
    (hp : ∀ i, points i = ![((i : ℕ) : ℝ)]) {H : List (Fin 1 → ℤ)} (hH : H.Nodup)
    (hH0 : ∀ c ∈ H, c ≠ 0)
    (hhalf : ∀ i j, ∀ c : Fin 1 → ℤ, c ≠ 0 →
      ndist (points i + comb ![![(n : ℝ)]] c) (points j) ≤ nth →
      (c ∈ H ∧ -c ∉ H) ∨ (c ∉ H ∧ -c ∈ H)) (g : (Fin 1 → ℤ) → Fin n → Pt 1) :
    (interBonds points ![![(n : ℝ)]] H P g).Perm
      (((List.finRange n).filter fun a : Fin n => decide (n ≤ (a : ℕ) + nth)).map fun a : Fin n =>
        let c : Fin 1 → ℤ := fun _ => (((a : ℕ) + nth) / n : ℕ)
        let b : Fin n := ⟨((a : ℕ) + nth) % n, Nat.mod_lt _ a.pos⟩
        if c ∈ H then (points a, g c b) else (points b, g (-c) a)) := by
  have hc1 : ∀ c : Fin 1 → ℤ, c = fun _ => c 0 := fun c => by
    funext i; rw [Subsingleton.elim i 0]
  set φ : Fin n → (Fin 1 → ℤ) × Fin n × Fin n := fun a =>
    let c : Fin 1 → ℤ := fun _ => (((a : ℕ) + nth) / n : ℕ)
    let b : Fin n := ⟨((a : ℕ) + nth) % n, Nat.mod_lt _ a.pos⟩
    if c ∈ H then (c, a, b) else (-c, b, a) with hφ
  have hmap : (((List.finRange n).filter fun a : Fin n => decide (n ≤ (a : ℕ) + nth)).map
      fun a : Fin n =>
        let c : Fin 1 → ℤ := fun _ => (((a : ℕ) + nth) / n : ℕ)
        let b : Fin n := ⟨((a : ℕ) + nth) % n, Nat.mod_lt _ a.pos⟩
        if c ∈ H then (points a, g c b) else (points b, g (-c) a)) =
      (((List.finRange n).filter fun a : Fin n => decide (n ≤ (a : ℕ) + nth)).map φ).map
        fun p : (Fin 1 → ℤ) × Fin n × Fin n => (points p.2.1, g p.1 p.2.2) := by
    rw [List.map_map]
    refine List.map_congr_left fun a _ => ?_
    simp only [hφ, Function.comp_apply]
    split_ifs <;> rfl
  rw [hmap]
  unfold interBonds
  refine List.Perm.map _ ?_
  -- facts about the wrapped neighbour
  have hdm : ∀ a : Fin n, (a : ℕ) + nth = n * (((a : ℕ) + nth) / n) + ((a : ℕ) + nth) % n :=
    fun a => (Nat.div_add_mod _ _).symm
  have hq : ∀ a : Fin n, n ≤ (a : ℕ) + nth → 1 ≤ ((a : ℕ) + nth) / n := fun a h =>
    (Nat.one_le_div_iff a.pos).2 h
  refine (List.perm_ext_iff_of_nodup
    ((hH.product ((List.nodup_finRange n).product (List.nodup_finRange n))).filter _)
    (List.Nodup.map_on (fun a ha b hb hab => by
      rw [List.mem_filter, decide_eq_true_iff] at ha hb
      have ha' := hq a ha.2
      have hb' := hq b hb.2
      simp only [hφ] at hab
      split_ifs at hab
      · exact (Prod.mk.inj (Prod.mk.inj hab).2).1
      · have := congrFun (Prod.mk.inj hab).1 0
        simp only [Pi.neg_apply] at this
        omega
      · have := congrFun (Prod.mk.inj hab).1 0
        simp only [Pi.neg_apply] at this
        omega
      · exact (Prod.mk.inj (Prod.mk.inj hab).2).2) ((List.nodup_finRange n).filter _))).2 ?_
  rintro ⟨c, i, j⟩
  have hi := i.2
  have hj := j.2
  have hn0 : (0 : ℤ) < n := by omega
  have hd : ndist (points i) (points j + comb ![![(n : ℝ)]] c) =
      |(((i : ℕ) - ((j : ℕ) + c 0 * n) : ℤ) : ℝ)| := by
    rw [hp, hp, comb_chain, pt_add, ndist_pt]; push_cast; rfl
  rw [List.mem_filter, List.mem_map, decide_eq_true_iff]
  dsimp only
  rw [hd]
  have hmem : (c, i, j) ∈ H ×ˢ List.finRange n ×ˢ List.finRange n ↔ c ∈ H := by
    simp
  rw [hmem]
  constructor
  · rintro ⟨h1, h2⟩
    have hc0 : c 0 ≠ 0 := fun h => hH0 c h1 (by rw [hc1 c, h]; rfl)
    rcases lt_or_gt_of_ne hc0 with hneg | hpos
    · -- backwards: `a = j`
      have hle : c 0 * n ≤ (-1) * n := mul_le_mul_of_nonneg_right (by omega) hn0.le
      rw [hP _ (by omega), abs_of_pos (by omega)] at h2
      obtain ⟨q, hq'⟩ : ∃ q : ℕ, c 0 = -q := ⟨(-c 0).toNat, by omega⟩
      rw [hq'] at h2 hle
      have h3 : (j : ℕ) + nth = i + n * q := by
        zify; linarith
      have hdiv : ((j : ℕ) + nth) / n = q := by
        rw [h3, Nat.add_mul_div_left _ _ j.pos, Nat.div_eq_of_lt hi, zero_add]
      have hmod : ((j : ℕ) + nth) % n = i := by
        rw [h3, Nat.add_mul_mod_self_left, Nat.mod_eq_of_lt hi]
      have hcq : (-c : Fin 1 → ℤ) = fun _ => (q : ℤ) := by
        funext x; rw [Subsingleton.elim x 0, Pi.neg_apply, hq', neg_neg]
      have hc2 : c = -(fun _ => (q : ℤ) : Fin 1 → ℤ) := by rw [← hcq, neg_neg]
      refine ⟨j, ?_, ?_⟩
      · rw [List.mem_filter, decide_eq_true_iff]
        refine ⟨List.mem_finRange _, ?_⟩
        have : n * 1 ≤ n * q := Nat.mul_le_mul_left _ (by omega)
        omega
      · have hnot : ¬ ((fun _ => ((q : ℕ) : ℤ) : Fin 1 → ℤ) ∈ H) := by
          intro hin
          rcases hhalf j i c (hH0 c h1) (by
            rw [hp, hp, comb_chain, pt_add, ndist_pt, hq']
            have : (((j : ℕ) : ℝ) + ((-(q : ℤ) : ℤ) : ℝ) * n - ((i : ℕ) : ℝ)) =
                -(nth : ℝ) := by
              have : ((j : ℕ) : ℝ) + nth = ((i : ℕ) : ℝ) + n * q := by exact_mod_cast h3
              push_cast; linarith
            rw [this, abs_neg, abs_of_nonneg (by positivity)]) with h | h
          · rw [hcq] at h; exact h.2 hin
          · exact h.1 h1
        simp only [hφ, hdiv]
        rw [if_neg hnot, ← hc2]
        exact Prod.ext rfl (Prod.ext (Fin.ext hmod) rfl)
    · have hle : 1 * (n : ℤ) ≤ c 0 * n := mul_le_mul_of_nonneg_right (by omega) hn0.le
      rw [hP _ (by omega), abs_of_neg (by omega)] at h2
      obtain ⟨q, hq'⟩ : ∃ q : ℕ, c 0 = q := ⟨(c 0).toNat, by omega⟩
      rw [hq'] at h2 hle
      have h3 : (i : ℕ) + nth = j + n * q := by
        zify; linarith
      have hdiv : ((i : ℕ) + nth) / n = q := by
        rw [h3, Nat.add_mul_div_left _ _ j.pos, Nat.div_eq_of_lt hj, zero_add]
      have hmod : ((i : ℕ) + nth) % n = j := by
        rw [h3, Nat.add_mul_mod_self_left, Nat.mod_eq_of_lt hj]
      have hcq : c = fun _ => (q : ℤ) := by rw [hc1 c, hq']
      refine ⟨i, ?_, ?_⟩
      · rw [List.mem_filter, decide_eq_true_iff]
        refine ⟨List.mem_finRange _, ?_⟩
        have : n * 1 ≤ n * q := Nat.mul_le_mul_left _ (by omega)
        omega
      · simp only [hφ, hdiv]
        rw [if_pos (hcq ▸ h1), ← hcq]
        exact Prod.ext rfl (Prod.ext rfl (Fin.ext hmod))
  · rintro ⟨a, ha, hab⟩
    rw [List.mem_filter, decide_eq_true_iff] at ha
    have ha' := hq a ha.2
    have h3 := hdm a
    have hbn : ((a : ℕ) + nth) % n < n := Nat.mod_lt _ a.pos
    have han := a.2
    obtain ⟨q, hqe⟩ : ∃ q, ((a : ℕ) + nth) / n = q := ⟨_, rfl⟩
    obtain ⟨r, hre⟩ : ∃ r, ((a : ℕ) + nth) % n = r := ⟨_, rfl⟩
    simp only [hφ, hqe, hre] at hab
    rw [hqe] at ha'
    rw [hqe, hre] at h3
    rw [hre] at hbn
    have h3' : ((a : ℕ) : ℤ) + nth = q * n + r := by rw [mul_comm]; exact_mod_cast h3
    have hmn : 1 * (n : ℤ) ≤ q * n := mul_le_mul_of_nonneg_right (by exact_mod_cast ha') hn0.le
    split_ifs at hab with hin
    · obtain ⟨rfl, h4⟩ := Prod.mk.inj hab
      obtain ⟨rfl, rfl⟩ := Prod.mk.inj h4
      refine ⟨hin, ?_⟩
      dsimp only
      rw [hP _ (by omega), abs_of_neg (by omega)]
      linarith
    · obtain ⟨rfl, h4⟩ := Prod.mk.inj hab
      obtain ⟨rfl, rfl⟩ := Prod.mk.inj h4
      have hin' : -(fun _ => ((q : ℕ) : ℤ) : Fin 1 → ℤ) ∈ H := by
        rcases hhalf a ⟨r, hbn⟩ (-(fun _ => ((q : ℕ) : ℤ))) (by
          intro h0; have := congrFun h0 0; simp at this; omega) (by
          rw [hp, hp, comb_chain, pt_add, ndist_pt]
          have : (((a : ℕ) : ℝ) + (((-(fun _ => ((q : ℕ) : ℤ)) : Fin 1 → ℤ) 0 : ℤ) : ℝ) * n -
              (((r : ℕ) : ℝ))) = -(nth : ℝ) := by
            have : ((a : ℕ) : ℝ) + nth = n * q + r := by exact_mod_cast h3
            simp only [Pi.neg_apply]
            push_cast; linarith
          dsimp only
          rw [this, abs_neg, abs_of_nonneg (by positivity)]) with h | h
        · exact h.1
        · rw [neg_neg] at h; exact absurd h.2 hin
      refine ⟨hin', ?_⟩
      simp only [Pi.neg_apply, neg_mul]
      rw [hP _ (by omega), abs_of_pos (by omega)]
      linarith

end triples

end Verif.LDB
