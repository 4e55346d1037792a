import Verif.Proofs.RingGreen
import Verif.Spec.Hubbard
/-!
# Lemmas for C92: states and inner products in Fock space
-/

namespace Verif.Demo

open Spec Matrix Lanczos

theorem fockInner_eq {f : Fock} (g : Fock) {s : Finset (Finset ℕ)} (hs : f.support ⊆ s) :
    fockInner f g = ∑ S ∈ s, star (f S) * g S := by
  unfold fockInner
  exact Finsupp.sum_of_support_subset f hs _ fun _ _ => by rw [star_zero, zero_mul]

theorem fockInner_add_right (f g h : Fock) : fockInner f (g + h) = fockInner f g + fockInner f h := by
  rw [fockInner_eq _ subset_rfl, fockInner_eq _ subset_rfl, fockInner_eq _ subset_rfl, ← Finset.sum_add_distrib]
  exact Finset.sum_congr rfl fun S _ => by rw [Finsupp.add_apply, mul_add]

theorem fockInner_smul_right (f g : Fock) (z : ℂ) : fockInner f (z • g) = z * fockInner f g := by
  rw [fockInner_eq _ subset_rfl, fockInner_eq _ subset_rfl, Finset.mul_sum]
  exact Finset.sum_congr rfl fun S _ => by rw [Finsupp.smul_apply, smul_eq_mul]; ring

theorem fockInner_conj (f g : Fock) : star (fockInner f g) = fockInner g f := by
  rw [fockInner_eq _ (Finset.subset_union_left (s₂ := g.support)),
    fockInner_eq _ (Finset.subset_union_right (s₁ := f.support)), star_sum]
  exact Finset.sum_congr rfl fun S _ => by rw [star_mul', star_star, mul_comm]

theorem fockInner_self_eq_zero {f : Fock} (h : fockInner f f = 0) : f = 0 := by
  rw [fockInner_eq _ subset_rfl] at h
  have h1 : ∑ S ∈ f.support, Complex.normSq (f S) = 0 := by
    have h2 : ((∑ S ∈ f.support, Complex.normSq (f S) : ℝ) : ℂ) = 0 := by
      rw [← h, Complex.ofReal_sum]
      refine Finset.sum_congr rfl fun S _ => ?_
      rw [mul_comm]
      exact (Complex.mul_conj (f S)).symm
    exact_mod_cast h2
  ext S
  by_cases hS : S ∈ f.support
  · exact Complex.normSq_eq_zero.1 ((Finset.sum_eq_zero_iff_of_nonneg fun _ _ => Complex.normSq_nonneg _).1 h1 S hS)
  · simpa using hS

theorem fockInner_adj {A A' : Module.End ℂ Fock} (h : IsAdj A A') (f g : Fock) :
    fockInner f (A g) = fockInner (A' f) g := by
  set s := f.support ∪ g.support ∪ (A' f).support with hs
  have s1 : f.support ⊆ s := fun x hx => Finset.mem_union_left _ (Finset.mem_union_left _ hx)
  have s2 : g.support ⊆ s := fun x hx => Finset.mem_union_left _ (Finset.mem_union_right _ hx)
  have s3 : (A' f).support ⊆ s := fun x hx => Finset.mem_union_right _ hx
  rw [fockInner_eq _ s1, fockInner_eq _ s3]
  simp only [apply_eq_finsum A g s s2, apply_eq_finsum A' f s s1, star_sum, Finset.mul_sum, Finset.sum_mul]
  rw [Finset.sum_comm]
  refine Finset.sum_congr rfl fun U _ => Finset.sum_congr rfl fun S _ => ?_
  have := h S U
  unfold matrixElement at this
  rw [this, star_mul']
  change star (f S) * (g U * star (A' (ket S) U)) = _
  ring

/-- A self-adjoint operator has no complex eigenvalue. -/
theorem resolvent_unique {H : Module.End ℂ Fock} (hH : IsAdj H H) {z : ℂ} (hz : z.im ≠ 0) {x : Fock} {a : ℂ}
    (ha : a = 1 ∨ a = -1) (E : ℝ) (h : z • x = a • H x + (E : ℂ) • x) : x = 0 := by
  have h1 := congrArg (fockInner x) h
  rw [fockInner_add_right, fockInner_smul_right, fockInner_smul_right, fockInner_smul_right] at h1
  have r1 : (fockInner x x).im = 0 := by
    have := congrArg Complex.im (fockInner_conj x x)
    simp at this
    linarith
  have r2 : (fockInner x (H x)).im = 0 := by
    have h2 : star (fockInner x (H x)) = fockInner x (H x) := by
      rw [fockInner_conj, fockInner_adj hH]
    have := congrArg Complex.im h2
    simp at this
    linarith
  have h3 := congrArg Complex.im h1
  have ra : (a * fockInner x (H x)).im = 0 := by
    rcases ha with rfl | rfl <;> simp [r2]
  rw [Complex.add_im, Complex.mul_im, ra, Complex.mul_im, r1, Complex.ofReal_im] at h3
  have h4 : z.im * (fockInner x x).re = 0 := by linarith
  have h5 : (fockInner x x).re = 0 := (mul_eq_zero.1 h4).resolve_left hz
  exact fockInner_self_eq_zero (Complex.ext h5 r1)

theorem stateOf_add (B : List ℕ) (v w : Vec B.length) : stateOf B (v + w) = stateOf B v + stateOf B w := by
  unfold stateOf
  rw [← Finset.sum_add_distrib]
  exact Finset.sum_congr rfl fun r _ => by rw [Pi.add_apply, add_smul]

theorem stateOf_smul (B : List ℕ) (z : ℂ) (v : Vec B.length) : stateOf B (z • v) = z • stateOf B v := by
  unfold stateOf
  rw [Finset.smul_sum]
  exact Finset.sum_congr rfl fun r _ => by rw [Pi.smul_apply, smul_eq_mul, mul_smul]

theorem stateOf_apply {B : List ℕ} (hB : B.Nodup) (v : Vec B.length) (r : Fin B.length) :
    stateOf B v (occ B[r]) = v r := by
  unfold stateOf
  rw [Finsupp.finsetSum_apply, Finset.sum_eq_single r]
  · rw [Finsupp.smul_apply, ket, Finsupp.single_eq_same, smul_eq_mul, mul_one]
  · intro c _ hc
    rw [Finsupp.smul_apply, ket, Finsupp.single_apply, if_neg, smul_zero]
    intro he
    exact hc (Fin.ext ((List.Nodup.getElem_inj_iff hB).1 (occ_injective he)))
  · exact fun h => absurd (Finset.mem_univ r) h

theorem stateOf_support (B : List ℕ) (v : Vec B.length) {U : Finset ℕ} (h : stateOf B v U ≠ 0) :
    ∃ k ∈ B, U = occ k := by
  unfold stateOf at h
  rw [Finsupp.finsetSum_apply] at h
  obtain ⟨r, -, hr⟩ := Finset.exists_ne_zero_of_sum_ne_zero h
  rw [Finsupp.smul_apply, ket, Finsupp.single_apply] at hr
  refine ⟨B[r], List.getElem_mem _, ?_⟩
  by_contra hne
  rw [if_neg (Ne.symm hne), smul_zero] at hr
  exact hr rfl

/-- An operator on a state. -/
theorem apply_stateOf {O : Module.End ℂ Fock} {B L : List ℕ} (hB : B.Nodup) (hL : L.Nodup) (h : MapsTo O B L)
    (v : Vec B.length) : O (stateOf B v) = stateOf L (opMat2 L B O *ᵥ v) := by
  ext U
  have h1 := apply_eq_sum O (stateOf B v) B hB (fun U hU => stateOf_support B v hU) U
  by_cases hU : ∃ l ∈ L, U = occ l
  · obtain ⟨l, hl, rfl⟩ := hU
    obtain ⟨r, hr, rfl⟩ := List.mem_iff_getElem.1 hl
    have h2 := stateOf_apply hL (opMat2 L B O *ᵥ v) ⟨r, hr⟩
    rw [Fin.getElem_fin] at h2
    rw [h2, h1]
    refine Finset.sum_congr rfl fun c _ => ?_
    rw [stateOf_apply hB]
    rfl
  · have h2 : stateOf L (opMat2 L B O *ᵥ v) U = 0 := by
      by_contra hne
      exact hU (stateOf_support L _ hne)
    rw [h2, h1]
    refine Finset.sum_eq_zero fun c _ => ?_
    have : O (ket (occ B[c])) U = 0 := by
      by_contra hne
      exact hU (h _ (List.getElem_mem _) U hne)
    rw [this, zero_mul]

theorem fockInner_stateOf {B : List ℕ} (hB : B.Nodup) (v w : Vec B.length) :
    fockInner (stateOf B v) (stateOf B w) = vdot v w := by
  classical
  have hs : (stateOf B v).support ⊆ Finset.univ.image fun r : Fin B.length => occ B[r] := by
    intro U hU
    obtain ⟨k, hk, rfl⟩ := stateOf_support B v (Finsupp.mem_support_iff.1 hU)
    obtain ⟨r, hr, rfl⟩ := List.mem_iff_getElem.1 hk
    exact Finset.mem_image.2 ⟨⟨r, hr⟩, Finset.mem_univ _, rfl⟩
  rw [fockInner_eq _ hs, Finset.sum_image]
  · unfold vdot
    refine Finset.sum_congr rfl fun r _ => ?_
    rw [stateOf_apply hB, stateOf_apply hB]
  · intro a _ b _ hab
    exact Fin.ext ((List.Nodup.getElem_inj_iff hB).1 (occ_injective hab))

theorem fockInner_disjoint {B L : List ℕ} (h : ∀ k ∈ B, k ∉ L) (v : Vec B.length) (w : Vec L.length) :
    fockInner (stateOf B v) (stateOf L w) = 0 := by
  rw [fockInner_eq _ subset_rfl]
  refine Finset.sum_eq_zero fun U hU => ?_
  obtain ⟨k, hk, rfl⟩ := stateOf_support B v (Finsupp.mem_support_iff.1 hU)
  have : stateOf L w (occ k) = 0 := by
    by_contra hne
    obtain ⟨l, hl, he⟩ := stateOf_support L w hne
    rw [occ_injective he] at hk
    exact h l hk hl
  rw [this, mul_zero]

end Verif.Demo
