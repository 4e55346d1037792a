import Verif.Proofs.MatrixTerm
import Verif.Proofs.Fock
import Verif.Props.Matrix
import Mathlib.Combinatorics.Colex
/-! Relabelling the single-particle states of Fock space. -/

namespace Verif
open Spec

/-- pairs of `S` put in the opposite order by `σ` -/
def invPairs (σ : ℕ → ℕ) (S : Finset ℕ) : Finset (ℕ × ℕ) :=
  (S ×ˢ S).filter (fun p => p.1 < p.2 ∧ σ p.2 < σ p.1)

/-- the sign of the relabelling on `S` -/
def relSign (σ : ℕ → ℕ) (S : Finset ℕ) : ℂ := (-1) ^ (invPairs σ S).card

theorem relSign_sq (σ : ℕ → ℕ) (S : Finset ℕ) : relSign σ S * relSign σ S = 1 := by
  unfold relSign
  rw [← pow_add, ← two_mul, pow_mul]
  simp

theorem relSign_cases (σ : ℕ → ℕ) (S : Finset ℕ) : relSign σ S = 1 ∨ relSign σ S = -1 :=
  neg_one_pow_eq_or ℂ _

theorem card_invPairs_insert (σ : ℕ → ℕ) {i : ℕ} {S : Finset ℕ} (h : i ∉ S) :
    (invPairs σ (insert i S)).card = (invPairs σ S).card +
      (S.filter (fun b => i < b ∧ σ b < σ i)).card + (S.filter (fun a => a < i ∧ σ i < σ a)).card := by
  have : invPairs σ (insert i S) = invPairs σ S ∪
      (S.filter (fun b => i < b ∧ σ b < σ i)).image (fun b => (i, b)) ∪
      (S.filter (fun a => a < i ∧ σ i < σ a)).image (fun a => (a, i)) := by
    ext ⟨a, b⟩
    simp only [invPairs, Finset.mem_filter, Finset.mem_product, Finset.mem_insert, Finset.mem_union,
      Finset.mem_image, Prod.mk.injEq]
    constructor
    · rintro ⟨⟨rfl | ha, rfl | hb⟩, h1, h2⟩
      · omega
      · exact .inl (.inr ⟨b, ⟨hb, h1, h2⟩, rfl, rfl⟩)
      · exact .inr ⟨a, ⟨ha, h1, h2⟩, rfl, rfl⟩
      · exact .inl (.inl ⟨⟨ha, hb⟩, h1, h2⟩)
    · rintro ((⟨⟨ha, hb⟩, h⟩ | ⟨b, ⟨hb, h⟩, rfl, rfl⟩) | ⟨a, ⟨ha, h⟩, rfl, rfl⟩)
      · exact ⟨⟨.inr ha, .inr hb⟩, h⟩
      · exact ⟨⟨.inl rfl, .inr hb⟩, h⟩
      · exact ⟨⟨.inr ha, .inl rfl⟩, h⟩
  rw [this, Finset.card_union_of_disjoint, Finset.card_union_of_disjoint, Finset.card_image_of_injective,
    Finset.card_image_of_injective]
  · intro a b; simp
  · intro a b; simp
  · rw [Finset.disjoint_left]
    rintro ⟨a, b⟩ h1 h2
    simp only [invPairs, Finset.mem_filter, Finset.mem_product, Finset.mem_image, Prod.mk.injEq] at h1 h2
    obtain ⟨_, -, rfl, -⟩ := h2
    exact h h1.1.1
  · rw [Finset.disjoint_left]
    rintro ⟨a, b⟩ h1 h2
    simp only [invPairs, Finset.mem_filter, Finset.mem_product, Finset.mem_image, Prod.mk.injEq,
      Finset.mem_union] at h1 h2
    obtain ⟨_, ⟨hm, -⟩, rfl, rfl⟩ := h2
    rcases h1 with ⟨⟨-, h1⟩, -⟩ | ⟨_, -, rfl, -⟩
    · exact h h1
    · exact h hm

theorem jw_rel {σ : ℕ → ℕ} (hσ : Function.Injective σ) {i : ℕ} {S : Finset ℕ} (h : i ∉ S) :
    jwSign i S * relSign σ (insert i S) = relSign σ S * jwSign (σ i) (S.image σ) := by
  have e1 : (S.filter (· < i)).card = (S.filter (fun a => a < i ∧ σ a < σ i)).card +
      (S.filter (fun a => a < i ∧ σ i < σ a)).card := by
    rw [← Finset.card_union_of_disjoint]
    · congr 1
      ext a
      simp only [Finset.mem_filter, Finset.mem_union]
      have : a ∈ S → σ a ≠ σ i := fun ha he => h (hσ he ▸ ha)
      constructor
      · rintro ⟨ha, hl⟩
        rcases lt_or_gt_of_ne (this ha) with h' | h'
        · exact .inl ⟨ha, hl, h'⟩
        · exact .inr ⟨ha, hl, h'⟩
      · rintro (⟨ha, hl, -⟩ | ⟨ha, hl, -⟩) <;> exact ⟨ha, hl⟩
    · rw [Finset.disjoint_left]
      intro a h1 h2
      simp only [Finset.mem_filter] at h1 h2
      omega
  have e2 : ((S.image σ).filter (· < σ i)).card = (S.filter (fun a => a < i ∧ σ a < σ i)).card +
      (S.filter (fun b => i < b ∧ σ b < σ i)).card := by
    rw [Finset.filter_image, Finset.card_image_of_injective _ hσ, ← Finset.card_union_of_disjoint]
    · congr 1
      ext a
      simp only [Finset.mem_filter, Finset.mem_union]
      have : a ∈ S → a ≠ i := fun ha he => h (he ▸ ha)
      constructor
      · rintro ⟨ha, hl⟩
        rcases lt_or_gt_of_ne (this ha) with h' | h'
        · exact .inl ⟨ha, h', hl⟩
        · exact .inr ⟨ha, h', hl⟩
      · rintro (⟨ha, -, hl⟩ | ⟨ha, -, hl⟩) <;> exact ⟨ha, hl⟩
    · rw [Finset.disjoint_left]
      intro a h1 h2
      simp only [Finset.mem_filter] at h1 h2
      omega
  unfold jwSign relSign
  rw [e1, e2, card_invPairs_insert σ h]
  generalize (S.filter (fun a => a < i ∧ σ a < σ i)).card = x
  generalize (S.filter (fun a => a < i ∧ σ i < σ a)).card = y
  generalize (S.filter (fun b => i < b ∧ σ b < σ i)).card = z
  generalize (invPairs σ S).card = w
  have hy : ((-1 : ℂ) ^ y) * (-1) ^ y = 1 := by rw [← pow_add, ← two_mul, pow_mul]; simp
  rw [pow_add, pow_add, pow_add, pow_add]
  linear_combination ((-1 : ℂ) ^ x * (-1) ^ w * (-1) ^ z) * hy

/-- the relabelling operator `|S> -> sign |σ S>` -/
noncomputable def relabel (σ : ℕ → ℕ) : Module.End ℂ Fock :=
  Finsupp.linearCombination ℂ (fun S => relSign σ S • ket (S.image σ))

theorem relabel_ket (σ : ℕ → ℕ) (S : Finset ℕ) : relabel σ (ket S) = relSign σ S • ket (S.image σ) := by
  simp [relabel, ket]

theorem relabel_create {σ : ℕ → ℕ} (hσ : Function.Injective σ) (i : ℕ) :
    relabel σ * create i = create (σ i) * relabel σ := by
  apply end_ext
  intro S
  simp only [Module.End.mul_apply, relabel_ket, create_ket, map_smul]
  have hm : σ i ∈ S.image σ ↔ i ∈ S := by
    rw [Finset.mem_image]
    exact ⟨fun ⟨a, ha, he⟩ => hσ he ▸ ha, fun h => ⟨i, h, rfl⟩⟩
  by_cases h : i ∈ S
  · rw [if_pos h, if_pos (hm.mpr h)]
    simp
  · rw [if_neg h, if_neg (fun h' => h (hm.mp h')), map_smul, relabel_ket, smul_smul, smul_smul, jw_rel hσ h,
      Finset.image_insert]

theorem relabel_annihilate {σ : ℕ → ℕ} (hσ : Function.Injective σ) (i : ℕ) :
    relabel σ * annihilate i = annihilate (σ i) * relabel σ := by
  apply end_ext
  intro S
  simp only [Module.End.mul_apply, relabel_ket, annihilate_ket, map_smul]
  have hm : σ i ∈ S.image σ ↔ i ∈ S := by
    rw [Finset.mem_image]
    exact ⟨fun ⟨a, ha, he⟩ => hσ he ▸ ha, fun h => ⟨i, h, rfl⟩⟩
  by_cases h : i ∈ S
  · rw [if_pos h, if_pos (hm.mpr h), map_smul, relabel_ket, smul_smul, smul_smul]
    have hj := jw_rel hσ (i := i) (S := S.erase i) (by simp)
    rw [Finset.insert_erase h, jwSign_erase_self] at hj
    have himg : (S.erase i).image σ = (S.image σ).erase (σ i) := Finset.image_erase hσ S i
    rw [himg, jwSign_erase_self] at hj
    rw [himg]
    congr 1
    have h1 := jwSign_sq i S
    have h2 := jwSign_sq (σ i) (S.image σ)
    linear_combination (relSign σ S * jwSign (σ i) (S.image σ)) * h1 -
      jwSign i S * jwSign (σ i) (S.image σ) * hj - (jwSign i S * relSign σ (S.erase i)) * h2
  · rw [if_neg h, if_neg (fun h' => h (hm.mp h'))]
    simp

theorem relabel_fockProduct {σ : ℕ → ℕ} (hσ : Function.Injective σ) (l : List (ℕ × Otype)) :
    relabel σ * fockProduct l = fockProduct (l.map (fun p => (σ p.1, p.2))) * relabel σ := by
  induction l with
  | nil => simp [fockProduct]
  | cons p l ih =>
    obtain ⟨i, o⟩ := p
    have h3 : relabel σ * fockOp o i = fockOp o (σ i) * relabel σ := by
      cases o with
      | creation => exact relabel_create hσ i
      | annihilation => exact relabel_annihilate hσ i
    have h1 : fockProduct ((i, o) :: l) = fockOp o i * fockProduct l := by simp [fockProduct]
    have h2 : fockProduct (((i, o) :: l).map (fun p => (σ p.1, p.2))) =
        fockOp o (σ i) * fockProduct (l.map (fun p => (σ p.1, p.2))) := by simp [fockProduct]
    rw [h1, h2, ← mul_assoc, h3, mul_assoc, ih, mul_assoc]

theorem relabel_apply {σ : ℕ → ℕ} (hσ : Function.Injective σ) (v : Fock) (S : Finset ℕ) :
    relabel σ v (S.image σ) = relSign σ S * v S := by
  induction v using Finsupp.induction_linear with
  | zero => simp
  | add f g hf hg => simp [hf, hg, mul_add]
  | single T c =>
    have : Finsupp.single T c = c • ket T := by simp [ket]
    rw [this, map_smul, relabel_ket]
    simp only [Finsupp.smul_apply, ket, smul_eq_mul]
    by_cases h : T = S
    · subst h; simp; ring
    · rw [Finsupp.single_eq_of_ne, Finsupp.single_eq_of_ne (fun h' => h h'.symm)]
      · simp
      · intro h'
        exact h ((Finset.image_injective hσ h').symm)

theorem matrixElement_relabel {σ : ℕ → ℕ} (hσ : Function.Injective σ) (l : List (ℕ × Otype))
    (S T : Finset ℕ) :
    matrixElement (fockProduct (l.map (fun p => (σ p.1, p.2)))) (S.image σ) (T.image σ) =
      relSign σ S * relSign σ T * matrixElement (fockProduct l) S T := by
  have h := congrArg (fun O : Module.End ℂ Fock => O (ket T) (S.image σ)) (relabel_fockProduct hσ l)
  simp only [Module.End.mul_apply] at h
  rw [relabel_apply hσ, relabel_ket, map_smul, Finsupp.smul_apply, smul_eq_mul] at h
  unfold matrixElement
  have h2 := relSign_sq σ T
  linear_combination (-(relSign σ T)) * h - (fockProduct (l.map (fun p => (σ p.1, p.2)))) (ket (T.image σ)) (S.image σ) * h2

/-- the relabelled bit pattern -/
def relKet (σ : ℕ → ℕ) (k : ℕ) : ℕ := ∑ i ∈ (occ k).image σ, 2 ^ i

theorem occ_sum (S : Finset ℕ) : occ (∑ i ∈ S, 2 ^ i) = S := by
  have h := Finset.toFinset_bitIndices_sum_two_pow S
  ext i
  rw [mem_occ, ← h]
  generalize (∑ i ∈ S, 2 ^ i) = n
  simp [Nat.mem_bitIndices]

theorem occ_relKet (σ : ℕ → ℕ) (k : ℕ) : occ (relKet σ k) = (occ k).image σ := occ_sum _

end Verif
