import Verif.Proofs.Reorder
import Verif.Props.Averages
import Verif.Props.Spin
import Verif.Props.Reorder
/-!
# Lemmas for C117: permuting the spins
-/

namespace Verif
open Spec

/-- The numbers that two tables of the same sites give to the sites. -/
theorem exists_siteRelabelling {objs objs' : List SiteID} (hp : objs.Perm objs') {T T' : IndexTable SiteID}
    (hT : IndexTable.init objs 0 = .ok T) (hT' : IndexTable.init objs' 0 = .ok T') :
    ∃ σ : ℕ → ℕ, Function.Injective σ ∧ (∀ k, k < objs.length ↔ σ k < objs.length) ∧
      ∀ a i, T.queryIndex a = .ok i → T'.queryIndex a = .ok (σ i.toNat : ℤ) := by
  have hlen := hp.length_eq
  have C := C01_indextable_bijection objs 0 T hT
  have C' := C01_indextable_bijection objs' 0 T' hT'
  have hrange : ∀ (k : ℕ) (hk : k < objs.length), ∃ m, m < objs.length ∧ T'.queryIndex objs[k] = .ok (m : ℤ) := by
    intro k hk
    obtain ⟨m, hm, he⟩ := List.getElem_of_mem (hp.mem_iff.mp (List.getElem_mem hk))
    refine ⟨m, by omega, ?_⟩
    have := (C'.2.2.2.2.1 m objs[k] (by rw [List.getElem?_eq_getElem hm, he])).1
    simpa using this
  choose f hf hf' using hrange
  refine ⟨fun k => if h : k < objs.length then f k h else k, ?_, ?_, ?_⟩
  · intro a b hab
    by_cases ha : a < objs.length <;> by_cases hb : b < objs.length
    · simp only [ha, hb, dif_pos] at hab
      have h1 := hf' a ha
      have h2 := hf' b hb
      rw [← hab] at h2
      have h3 := siteIndex_congr T _ _ (siteIndex_inj hT' h1 h2)
      have h4 := (C.2.2.2.2.1 a _ (List.getElem?_eq_getElem ha)).1
      have h5 := (C.2.2.2.2.1 b _ (List.getElem?_eq_getElem hb)).1
      rw [h3, h5] at h4
      simpa using h4.symm
    · simp only [ha, hb, dif_pos, dif_neg, not_false_iff] at hab
      have := hf a ha; omega
    · simp only [ha, hb, dif_pos, dif_neg, not_false_iff] at hab
      have := hf b hb; omega
    · simpa [ha, hb] using hab
  · intro k
    by_cases h : k < objs.length
    · simp [h, hf k h]
    · simp [h]
  · intro a i hi
    obtain ⟨h0, hlt⟩ := siteIndex_range hT hi
    rw [C.2.2.1] at hlt
    have hk : i.toNat < objs.length := by omega
    simp only [hk, dif_pos]
    have h4 := (C.2.2.2.2.1 i.toNat _ (List.getElem?_eq_getElem hk)).1
    rw [zero_add, Int.toNat_of_nonneg h0] at h4
    rw [siteIndex_congr T' a objs[i.toNat] (siteIndex_inj hT hi h4)]
    exact hf' _ hk

section

variable {σ : ℕ → ℕ} {n : ℕ}

/-- The permutation of the basis states. -/
noncomputable def relPerm (hσ : Function.Injective σ) (hn : ∀ k, k < n ↔ σ k < n) : Equiv.Perm (Fin (2 ^ n)) :=
  Equiv.ofBijective (fun k : Fin (2 ^ n) => (⟨relKet σ k, relKet_lt hn k.2⟩ : Fin (2 ^ n)))
    (Finite.injective_iff_bijective.mp (by
      intro a b hab
      simp only [Fin.mk.injEq] at hab
      have := congrArg occ hab
      rw [occ_relKet, occ_relKet] at this
      exact Fin.ext (occ_injective (Finset.image_injective hσ this))))

theorem relPerm_val (hσ : Function.Injective σ) (hn : ∀ k, k < n ↔ σ k < n) (r : Fin (2 ^ n)) :
    (relPerm hσ hn r : ℕ) = relKet σ r := rfl

theorem digit_relKet (hσ : Function.Injective σ) (a j : ℕ) : digit (relKet σ a) (σ j) = digit a j := by
  rw [digit_eq_iff, Bool.eq_iff_iff, ← mem_occ, ← mem_occ, occ_relKet, Finset.mem_image]
  constructor
  · rintro ⟨i, hi, he⟩
    rwa [hσ he] at hi
  · exact fun h => ⟨j, h, rfl⟩

/-- `σ` reaches every number below `n`. -/
theorem rel_surj (hσ : Function.Injective σ) (hn : ∀ k, k < n ↔ σ k < n) {j : ℕ} (hj : j < n) :
    ∃ i, i < n ∧ σ i = j := by
  have hinj : Function.Injective (fun k : Fin n => (⟨σ k, (hn k).1 k.2⟩ : Fin n)) := by
    intro a b hab
    simp only [Fin.mk.injEq] at hab
    exact Fin.ext (hσ hab)
  obtain ⟨i, hi⟩ := (Finite.injective_iff_surjective.1 hinj) ⟨j, hj⟩
  exact ⟨i, i.2, congrArg Fin.val hi⟩

theorem siteOp_rel (hσ : Function.Injective σ) (hn : ∀ k, k < n ↔ σ k < n) (i : ℕ) (A : Matrix (Fin 2) (Fin 2) ℂ) :
    (siteOp n (σ i) A).submatrix (relPerm hσ hn) (relPerm hσ hn) = siteOp n i A := by
  ext a b
  simp only [Matrix.submatrix_apply, siteOp, Matrix.of_apply, relPerm_val, digit_relKet hσ]
  have : (∀ j < n, j ≠ σ i → digit (relKet σ a) j = digit (relKet σ b) j) ↔
      ∀ j < n, j ≠ i → digit (a : ℕ) j = digit (b : ℕ) j := by
    constructor
    · intro h j hj hji
      have := h (σ j) ((hn j).1 hj) (fun e => hji (hσ e))
      rwa [digit_relKet hσ, digit_relKet hσ] at this
    · intro h j hj hji
      obtain ⟨k, hk, rfl⟩ := rel_surj hσ hn hj
      rw [digit_relKet hσ, digit_relKet hσ]
      exact h k hk fun e => hji (by rw [e])
  by_cases h : ∀ j < n, j ≠ i → digit (a : ℕ) j = digit (b : ℕ) j
  · rw [if_pos (this.2 h), if_pos h]
  · rw [if_neg (fun h' => h (this.1 h')), if_neg h]

theorem prod_submatrix {d : ℕ} (f : Equiv.Perm (Fin d)) (l : List (Matrix (Fin d) (Fin d) ℂ)) :
    l.prod.submatrix f f = (l.map fun X => X.submatrix f f).prod := by
  induction l with
  | nil => simp [Matrix.submatrix_one_equiv]
  | cons X l ih => rw [List.prod_cons, List.map_cons, List.prod_cons, ← ih, Matrix.submatrix_mul_equiv]

theorem opsProduct_rel (hσ : Function.Injective σ) (hn : ∀ k, k < n ↔ σ k < n) (ops : List (ℤ × SpinOtype)) :
    (opsProduct n (ops.map fun p => ((σ p.1.toNat : ℤ), p.2))).submatrix (relPerm hσ hn) (relPerm hσ hn) =
      opsProduct n ops := by
  unfold opsProduct
  rw [prod_submatrix, List.map_map, List.map_map]
  congr 1
  refine List.map_congr_left fun p _ => ?_
  exact siteOp_rel hσ hn p.1.toNat _

theorem totalSpin_rel (hσ : Function.Injective σ) (hn : ∀ k, k < n ↔ σ k < n) (o : SpinOtype) :
    (totalSpin n o).submatrix (relPerm hσ hn) (relPerm hσ hn) = totalSpin n o := by
  rw [totalSpin_eq]
  have h1 : (n : ℤ).toNat = n := rfl
  have : ∑ i ∈ Finset.range n, siteOp n i (spinHalf o) = ∑ i ∈ Finset.range n, siteOp n (σ i) (spinHalf o) := by
    refine (Finset.sum_bij (fun i _ => σ i) (fun i hi => ?_) (fun i _ j _ h => hσ h) (fun j hj => ?_)
      fun i _ => rfl).symm
    · exact Finset.mem_range.2 ((hn i).1 (Finset.mem_range.1 hi))
    · obtain ⟨i, hi, he⟩ := rel_surj hσ hn (Finset.mem_range.1 hj)
      exact ⟨i, Finset.mem_range.2 hi, he⟩
  change (∑ i ∈ Finset.range n, siteOp n i (spinHalf o)).submatrix _ _ = ∑ i ∈ Finset.range n, siteOp n i (spinHalf o)
  conv_lhs => rw [this]
  ext a b
  rw [Matrix.submatrix_apply, Matrix.sum_apply, Matrix.sum_apply]
  refine Finset.sum_congr rfl fun i _ => ?_
  exact congrFun (congrFun (siteOp_rel hσ hn i (spinHalf o)) a) b

theorem expectation_rel {d : ℕ} (f : Equiv.Perm (Fin d)) (M : Matrix (Fin d) (Fin d) ℂ) (v : Fin d → ℂ) :
    expectation M v = expectation (M.submatrix f f) (v ∘ f) := by
  unfold expectation
  congr 1
  · simp only [dotProduct, Matrix.mulVec, Matrix.submatrix_apply, Function.comp_apply, Pi.star_apply]
    rw [← Equiv.sum_comp f]
    refine Finset.sum_congr rfl fun r _ => ?_
    congr 1
    exact (Equiv.sum_comp f _).symm
  · simp only [dotProduct, Function.comp_apply, Pi.star_apply]
    exact (Equiv.sum_comp f _).symm

end

end Verif
