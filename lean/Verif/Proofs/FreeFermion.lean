import Verif.Proofs.FockState
import Mathlib.LinearAlgebra.Matrix.Charpoly.Basic
import Mathlib.Analysis.Matrix.Spectrum
import Mathlib.Data.Fintype.Powerset
/-!
# Lemmas for C98: free fermions
-/

namespace Verif.Free

open Spec Matrix Lanczos Demo

variable {n : ℕ}

/-- `sum_ij h_ij c_i^dagger c_j` -/
noncomputable def quadratic (h : Matrix (Fin n) (Fin n) ℂ) : Module.End ℂ Fock :=
  ∑ i : Fin n, ∑ j : Fin n, h i j • (create i * annihilate j)

variable (U : Matrix (Fin n) (Fin n) ℂ)

/-- creation operator of a mode -/
noncomputable def modC (k : Fin n) : Module.End ℂ Fock := ∑ i : Fin n, U i k • create (i : ℕ)

/-- annihilation operator of a mode -/
noncomputable def modA (k : Fin n) : Module.End ℂ Fock := ∑ i : Fin n, star (U i k) • annihilate (i : ℕ)

theorem modA_modC (hU : Uᴴ * U = 1) (k l : Fin n) :
    modA U k * modC U l + modC U l * modA U k = if k = l then 1 else 0 := by
  have e1 : modA U k * modC U l = ∑ i : Fin n, ∑ j : Fin n, (star (U i k) * U j l) •
      (annihilate (i : ℕ) * create (j : ℕ)) := by
    simp only [modA, modC, Finset.sum_mul_sum, smul_mul_smul_comm]
  have e2 : modC U l * modA U k = ∑ i : Fin n, ∑ j : Fin n, (star (U i k) * U j l) •
      (create (j : ℕ) * annihilate (i : ℕ)) := by
    simp only [modA, modC, Finset.sum_mul_sum, smul_mul_smul_comm]
    rw [Finset.sum_comm]
    refine Finset.sum_congr rfl fun i _ => Finset.sum_congr rfl fun j _ => ?_
    rw [mul_comm (U j l)]
  rw [e1, e2, ← Finset.sum_add_distrib]
  have e3 : ∀ i : Fin n, (∑ j : Fin n, (star (U i k) * U j l) • (annihilate (i : ℕ) * create (j : ℕ))) +
      (∑ j : Fin n, (star (U i k) * U j l) • (create (j : ℕ) * annihilate (i : ℕ))) =
      (star (U i k) * U i l) • (1 : Module.End ℂ Fock) := by
    intro i
    rw [← Finset.sum_add_distrib, Finset.sum_eq_single i]
    · rw [← smul_add, annihilate_create, if_pos rfl]
    · intro j _ hj
      rw [← smul_add, annihilate_create, if_neg (fun e => hj (Fin.ext e.symm)), smul_zero]
    · intro h; exact absurd (Finset.mem_univ i) h
  rw [Finset.sum_congr rfl fun i _ => e3 i, ← Finset.sum_smul]
  have e4 : ∑ i : Fin n, star (U i k) * U i l = (Uᴴ * U) k l := rfl
  rw [e4, hU, Matrix.one_apply]
  split <;> simp

theorem modC_modC (k l : Fin n) : modC U k * modC U l + modC U l * modC U k = 0 := by
  have e1 : modC U k * modC U l = ∑ i : Fin n, ∑ j : Fin n, (U i k * U j l) • (create (i : ℕ) * create (j : ℕ)) := by
    simp only [modC, Finset.sum_mul_sum, smul_mul_smul_comm]
  have e2 : modC U l * modC U k = ∑ i : Fin n, ∑ j : Fin n, (U i k * U j l) • (create (j : ℕ) * create (i : ℕ)) := by
    simp only [modC, Finset.sum_mul_sum, smul_mul_smul_comm]
    rw [Finset.sum_comm]
    refine Finset.sum_congr rfl fun i _ => Finset.sum_congr rfl fun j _ => ?_
    rw [mul_comm (U j l)]
  rw [e1, e2, ← Finset.sum_add_distrib]
  refine Finset.sum_eq_zero fun i _ => ?_
  rw [← Finset.sum_add_distrib]
  refine Finset.sum_eq_zero fun j _ => ?_
  rw [← smul_add, create_create, smul_zero]

theorem quadratic_create (h : Matrix (Fin n) (Fin n) ℂ) (l : Fin n) :
    quadratic h * create (l : ℕ) = create (l : ℕ) * quadratic h + ∑ i : Fin n, h i l • create (i : ℕ) := by
  have key : ∀ i j : Fin n, (create (i : ℕ) * annihilate (j : ℕ)) * create (l : ℕ) =
      create (l : ℕ) * (create (i : ℕ) * annihilate (j : ℕ)) + (if j = l then create (i : ℕ) else 0) := by
    intro i j
    refine LinearMap.ext fun f => ?_
    have h1 := congrArg (fun O : Module.End ℂ Fock => O f) (annihilate_create (j : ℕ) (l : ℕ))
    have h2 := congrArg (fun O : Module.End ℂ Fock => O (annihilate (j : ℕ) f)) (create_create (i : ℕ) (l : ℕ))
    simp only [Module.End.mul_apply, LinearMap.add_apply, LinearMap.zero_apply] at h1 h2 ⊢
    have h4 := eq_neg_of_add_eq_zero_left h2
    rw [eq_sub_of_add_eq h1, map_sub, h4, sub_neg_eq_add, add_comm]
    congr 1
    by_cases e : j = l
    · rw [if_pos e, if_pos (congrArg Fin.val e), Module.End.one_apply]
    · rw [if_neg e, if_neg (fun e' => e (Fin.ext e')), LinearMap.zero_apply, map_zero]
  unfold quadratic
  simp only [Finset.sum_mul, Finset.mul_sum, smul_mul_assoc, mul_smul_comm, key, smul_add, Finset.sum_add_distrib]
  congr 1
  refine Finset.sum_congr rfl fun i _ => ?_
  rw [Finset.sum_eq_single l]
  · rw [if_pos rfl]
  · intro j _ hj
    rw [if_neg hj, smul_zero]
  · intro h; exact absurd (Finset.mem_univ l) h

variable {U} {h : Matrix (Fin n) (Fin n) ℂ} {eps : Fin n → ℝ}

theorem quadratic_modC (hd : h * U = U * Matrix.diagonal fun k => (eps k : ℂ)) (k : Fin n) :
    quadratic h * modC U k = modC U k * quadratic h + (eps k : ℂ) • modC U k := by
  have e : ∑ l : Fin n, U l k • ∑ i : Fin n, h i l • create (i : ℕ) = (eps k : ℂ) • modC U k := by
    unfold modC
    simp only [Finset.smul_sum, smul_smul]
    rw [Finset.sum_comm]
    refine Finset.sum_congr rfl fun i _ => ?_
    rw [← Finset.sum_smul]
    congr 1
    have := congrFun (congrFun hd i) k
    rw [Matrix.mul_diagonal, Matrix.mul_apply] at this
    rw [mul_comm, ← this]
    exact Finset.sum_congr rfl fun j _ => mul_comm _ _
  conv_lhs => unfold modC
  rw [Finset.mul_sum]
  simp only [mul_smul_comm, quadratic_create, smul_add, Finset.sum_add_distrib]
  rw [e]
  congr 1
  unfold modC
  rw [Finset.sum_mul]
  simp only [smul_mul_assoc]

/-- the many-particle state with the modes of the list occupied -/
noncomputable def slater (U : Matrix (Fin n) (Fin n) ℂ) (l : List (Fin n)) : Fock := (l.map (modC U)).prod (ket ∅)

theorem slater_cons (k : Fin n) (l : List (Fin n)) : slater U (k :: l) = modC U k (slater U l) := by
  simp [slater, Module.End.mul_apply]

theorem quadratic_vacuum (h : Matrix (Fin n) (Fin n) ℂ) : quadratic h (ket ∅) = 0 := by
  simp [quadratic, annihilate_ket]

theorem modA_vacuum (k : Fin n) : modA U k (ket ∅) = 0 := by
  simp [modA, annihilate_ket]

theorem slater_eigen (hd : h * U = U * Matrix.diagonal fun k => (eps k : ℂ)) (l : List (Fin n)) :
    quadratic h (slater U l) = (((l.map eps).sum : ℝ) : ℂ) • slater U l := by
  induction l with
  | nil => simp [slater, quadratic_vacuum]
  | cons k l ih =>
    have e := congrArg (fun O : Module.End ℂ Fock => O (slater U l)) (quadratic_modC hd k)
    simp only [Module.End.mul_apply, LinearMap.add_apply, LinearMap.smul_apply] at e
    rw [slater_cons, e, ih, map_smul, ← add_smul]
    congr 1
    rw [List.map_cons, List.sum_cons]
    push_cast
    ring

theorem modA_slater (hU : Uᴴ * U = 1) (k : Fin n) (l : List (Fin n)) (hk : k ∉ l) : modA U k (slater U l) = 0 := by
  induction l with
  | nil => exact modA_vacuum k
  | cons a l ih =>
    have e := congrArg (fun O : Module.End ℂ Fock => O (slater U l)) (modA_modC U hU k a)
    rw [if_neg (fun e => hk (by simp [e]))] at e
    simp only [Module.End.mul_apply, LinearMap.add_apply, LinearMap.zero_apply] at e
    rw [ih (fun h => hk (List.mem_cons_of_mem _ h)), map_zero, add_zero] at e
    rw [slater_cons, e]

theorem modA_slater_cons (hU : Uᴴ * U = 1) (k : Fin n) (l : List (Fin n)) (hk : k ∉ l) :
    modA U k (slater U (k :: l)) = slater U l := by
  have e := congrArg (fun O : Module.End ℂ Fock => O (slater U l)) (modA_modC U hU k k)
  rw [if_pos rfl] at e
  simp only [Module.End.mul_apply, LinearMap.add_apply, Module.End.one_apply] at e
  rw [modA_slater hU k l hk, map_zero, add_zero] at e
  rw [slater_cons, e]

/-- occupation number of a mode -/
theorem modN_slater (hU : Uᴴ * U = 1) (k : Fin n) (l : List (Fin n)) (hl : l.Nodup) :
    modC U k (modA U k (slater U l)) = if k ∈ l then slater U l else 0 := by
  induction l with
  | nil => rw [show slater U [] = ket ∅ by simp [slater], modA_vacuum]; simp
  | cons a l ih =>
    obtain ⟨ha, hl⟩ := List.nodup_cons.mp hl
    by_cases hka : k = a
    · subst hka
      rw [modA_slater_cons hU k l ha, if_pos (by simp), slater_cons]
    · have e1 := congrArg (fun O : Module.End ℂ Fock => O (slater U l)) (modA_modC U hU k a)
      rw [if_neg hka] at e1
      simp only [Module.End.mul_apply, LinearMap.add_apply, LinearMap.zero_apply] at e1
      have e2 := congrArg (fun O : Module.End ℂ Fock => O (modA U k (slater U l))) (modC_modC U k a)
      simp only [Module.End.mul_apply, LinearMap.add_apply, LinearMap.zero_apply] at e2
      have e3 : modA U k (modC U a (slater U l)) = -(modC U a (modA U k (slater U l))) := eq_neg_of_add_eq_zero_left e1
      have e4 : modC U k (modC U a (modA U k (slater U l))) = -(modC U a (modC U k (modA U k (slater U l)))) :=
        eq_neg_of_add_eq_zero_left e2
      rw [slater_cons, e3, map_neg, e4, neg_neg, ih hl]
      by_cases hkl : k ∈ l
      · rw [if_pos hkl, if_pos (List.mem_cons_of_mem _ hkl)]
      · rw [if_neg hkl, if_neg (by simp [hka, hkl]), map_zero]

theorem isAdj_modC (k : Fin n) : IsAdj (modC U k) (modA U k) :=
  isAdj_sum fun i _ => isAdj_smul (isAdj_create_annihilate i) _

theorem isAdj_modA (k : Fin n) : IsAdj (modA U k) (modC U k) := by
  have : modC U k = ∑ i : Fin n, star (star (U i k)) • create (i : ℕ) := by simp [modC]
  rw [this]
  exact isAdj_sum fun i _ => isAdj_smul (isAdj_fockOp .annihilation i) _

theorem slater_inner_self (hU : Uᴴ * U = 1) (l : List (Fin n)) (hl : l.Nodup) :
    fockInner (slater U l) (slater U l) = 1 := by
  induction l with
  | nil =>
    have : slater U [] = ket ∅ := by simp [slater]
    rw [this, ket]
    simp [fockInner]
  | cons k l ih =>
    obtain ⟨hk, hl⟩ := List.nodup_cons.mp hl
    conv_lhs => rw [slater_cons (l := l) (k := k)]
    rw [fockInner_adj (isAdj_modC k), ← slater_cons, modA_slater_cons hU k l hk, ih hl]

theorem slater_inner_ne (hU : Uᴴ * U = 1) (l l' : List (Fin n)) (hl : l.Nodup) (k : Fin n)
    (hk : k ∈ l) (hk' : k ∉ l') : fockInner (slater U l) (slater U l') = 0 := by
  have h1 := modN_slater hU k l hl
  rw [if_pos hk] at h1
  have h2 : fockInner (slater U l) (modC U k (modA U k (slater U l'))) =
      fockInner (slater U l) (slater U l') := by
    rw [fockInner_adj (isAdj_modC k), fockInner_adj (isAdj_modA k), h1]
  rw [← h2, modA_slater hU k l' hk', map_zero, fockInner_eq _ subset_rfl]
  simp

/-! ### Sectors -/

/-- the vector has exactly `N` particles in the states `0 .. n-1` -/
def InSector (n N : ℕ) (f : Fock) : Prop := ∀ S, f S ≠ 0 → S ⊆ Finset.range n ∧ S.card = N

theorem InSector.smul {N : ℕ} {f : Fock} (hf : InSector n N f) (z : ℂ) : InSector n N (z • f) := by
  intro S hS
  rw [Finsupp.smul_apply, smul_eq_mul] at hS
  exact hf S (right_ne_zero_of_mul hS)

theorem InSector.sum {N : ℕ} {ι : Type*} {s : Finset ι} {f : ι → Fock} (hf : ∀ i ∈ s, InSector n N (f i)) :
    InSector n N (∑ i ∈ s, f i) := by
  intro S hS
  rw [Finsupp.finsetSum_apply] at hS
  obtain ⟨i, hi, h⟩ := Finset.exists_ne_zero_of_sum_ne_zero hS
  exact hf i hi S h

theorem InSector.apply {N N' : ℕ} {O : Module.End ℂ Fock}
    (hO : ∀ S : Finset ℕ, S ⊆ Finset.range n → S.card = N → InSector n N' (O (ket S))) {f : Fock} (hf : InSector n N f) :
    InSector n N' (O f) := by
  intro S hS
  rw [apply_eq_finsum O f f.support subset_rfl] at hS
  obtain ⟨T, hT, h⟩ := Finset.exists_ne_zero_of_sum_ne_zero hS
  obtain ⟨h1, h2⟩ := hf T (Finsupp.mem_support_iff.mp hT)
  exact hO T h1 h2 S (right_ne_zero_of_mul h)

theorem ket_apply_ne {S T : Finset ℕ} (hne : ket S T ≠ 0) : T = S := by
  unfold ket at hne
  rw [Finsupp.single_apply] at hne
  by_contra h
  rw [if_neg (fun e => h e.symm)] at hne
  exact hne rfl

theorem create_sector {N : ℕ} (i : Fin n) (S : Finset ℕ) (hS : S ⊆ Finset.range n) (hc : S.card = N) :
    InSector n (N + 1) (create (i : ℕ) (ket S)) := by
  intro T hT
  rw [create_ket] at hT
  split at hT
  · simp at hT
  · next hi =>
    rw [Finsupp.smul_apply] at hT
    have := ket_apply_ne (right_ne_zero_of_mul hT)
    subst this
    refine ⟨?_, by rw [Finset.card_insert_of_notMem hi, hc]⟩
    intro x hx
    rcases Finset.mem_insert.mp hx with rfl | hx
    · exact Finset.mem_range.mpr i.2
    · exact hS hx

theorem hop_sector {N : ℕ} (i j : Fin n) (S : Finset ℕ) (hS : S ⊆ Finset.range n) (hc : S.card = N) :
    InSector n N ((create (i : ℕ) * annihilate (j : ℕ)) (ket S)) := by
  rw [Module.End.mul_apply, annihilate_ket]
  split
  · next hj =>
    rw [map_smul]
    refine InSector.smul ?_ _
    have := create_sector (N := N - 1) i (S.erase j) ((Finset.erase_subset _ _).trans hS)
      (by rw [Finset.card_erase_of_mem hj, hc])
    have hpos : 0 < N := by rw [← hc]; exact Finset.card_pos.mpr ⟨_, hj⟩
    rwa [Nat.sub_add_cancel hpos] at this
  · rw [map_zero]
    intro T hT
    simp at hT

theorem slater_sector (l : List (Fin n)) : InSector n l.length (slater U l) := by
  induction l with
  | nil =>
    intro S hS
    rw [show slater U [] = ket ∅ by simp [slater]] at hS
    rw [ket_apply_ne hS]
    simp
  | cons k l ih =>
    rw [slater_cons]
    refine InSector.apply ?_ ih
    intro S hS hc
    unfold modC
    rw [LinearMap.sum_apply]
    exact InSector.sum fun i _ => (create_sector i S hS hc).smul _

/-- `B` lists the kets of `N` particles in the states `0 .. n-1` -/
def ListsSector (n N : ℕ) (B : List ℕ) : Prop :=
  B.Nodup ∧ ∀ k, k ∈ B ↔ occ k ⊆ Finset.range n ∧ (occ k).card = N

variable {N : ℕ} {B : List ℕ}

theorem exists_occ (S : Finset ℕ) : ∃ k, occ k = S := by
  induction S using Finset.induction_on with
  | empty => exact ⟨0, by simp [occ]⟩
  | insert a S ha ih =>
    obtain ⟨k, rfl⟩ := ih
    refine ⟨k ||| 2 ^ a, ?_⟩
    ext j
    rw [mem_occ, Nat.testBit_or, Finset.mem_insert, mem_occ, Nat.testBit_two_pow]
    simp only [Bool.or_eq_true, decide_eq_true_eq]
    tauto

theorem mapsTo_hop (hB : ListsSector n N B) (i j : Fin n) : MapsTo (create (i : ℕ) * annihilate (j : ℕ)) B B := by
  intro k hk T hT
  obtain ⟨h1, h2⟩ := (hB.2 k).mp hk
  obtain ⟨h3, h4⟩ := hop_sector i j (occ k) h1 h2 T hT
  obtain ⟨l, rfl⟩ := exists_occ T
  exact ⟨l, (hB.2 l).mpr ⟨h3, h4⟩, rfl⟩

theorem mapsTo_quadratic (hB : ListsSector n N B) (h : Matrix (Fin n) (Fin n) ℂ) : MapsTo (quadratic h) B B :=
  MapsTo.sum fun i _ => MapsTo.sum fun j _ => (mapsTo_hop hB i j).smul _

/-- coefficients of a vector of the sector -/
def coeffs (B : List ℕ) (f : Fock) : Fin B.length → ℂ := fun r => f (occ B[r])

theorem stateOf_coeffs (hB : ListsSector n N B) {f : Fock} (hf : InSector n N f) : stateOf B (coeffs B f) = f := by
  ext T
  by_cases hT : ∃ k ∈ B, T = occ k
  · obtain ⟨k, hk, rfl⟩ := hT
    obtain ⟨r, hr, rfl⟩ := List.mem_iff_getElem.mp hk
    exact stateOf_apply hB.1 _ ⟨r, hr⟩
  · have h1 : stateOf B (coeffs B f) T = 0 := by
      by_contra h
      exact hT (stateOf_support B _ h)
    rw [h1]
    by_contra h
    obtain ⟨h3, h4⟩ := hf T (fun e => h e.symm)
    obtain ⟨k, rfl⟩ := exists_occ T
    exact hT ⟨k, (hB.2 k).mpr ⟨h3, h4⟩, rfl⟩

theorem coeffs_eigen (hB : ListsSector n N B) {f : Fock} (hf : InSector n N f) {z : ℂ} (he : quadratic h f = z • f) :
    opMat B (quadratic h) *ᵥ coeffs B f = z • coeffs B f := by
  have h1 := apply_stateOf hB.1 hB.1 (mapsTo_quadratic hB h) (coeffs B f)
  rw [stateOf_coeffs hB hf, he, ← opMat_eq_opMat2] at h1
  funext r
  have h2 := congrArg (fun g : Fock => g (occ B[r])) h1
  rw [stateOf_apply hB.1] at h2
  rw [← h2]
  rfl

theorem length_of_lists (hB : ListsSector n N B) : B.length = (Finset.powersetCard N (Finset.univ : Finset (Fin n))).card := by
  classical
  have e : B.toFinset.image occ = Finset.powersetCard N (Finset.range n) := by
    ext S
    rw [Finset.mem_image, Finset.mem_powersetCard]
    constructor
    · rintro ⟨k, hk, rfl⟩
      exact (hB.2 k).mp (List.mem_toFinset.mp hk)
    · intro hS
      obtain ⟨k, rfl⟩ := exists_occ S
      exact ⟨k, List.mem_toFinset.mpr ((hB.2 k).mpr hS), rfl⟩
  have := congrArg Finset.card e
  rw [Finset.card_image_of_injective _ (fun a b h => occ_injective h), List.toFinset_card_of_nodup hB.1,
    Finset.card_powersetCard, Finset.card_range] at this
  rw [this, Finset.card_powersetCard, Finset.card_univ, Fintype.card_fin]

theorem charpoly_quadratic (hB : ListsSector n N B) (hU : Uᴴ * U = 1)
    (hd : h * U = U * Matrix.diagonal fun k => (eps k : ℂ)) :
    (opMat B (quadratic h)).charpoly =
      ∏ K ∈ Finset.powersetCard N (Finset.univ : Finset (Fin n)), (Polynomial.X - Polynomial.C ((∑ k ∈ K, eps k : ℝ) : ℂ)) := by
  classical
  set P := Finset.powersetCard N (Finset.univ : Finset (Fin n)) with hP
  have hcard : Fintype.card P = Fintype.card (Fin B.length) := by
    rw [Fintype.card_coe, Fintype.card_fin, length_of_lists hB]
  let e : Fin B.length ≃ P := (Fintype.equivOfCardEq hcard).symm
  let w : P → Fin B.length → ℂ := fun K => coeffs B (slater U K.1.toList)
  have hsec : ∀ K : P, InSector n N (slater U K.1.toList) := by
    intro K
    have := slater_sector (U := U) K.1.toList
    rwa [Finset.length_toList, (Finset.mem_powersetCard.mp K.2).2] at this
  let W : Matrix (Fin B.length) (Fin B.length) ℂ := Matrix.of fun r c => w (e c) r
  let D : Matrix (Fin B.length) (Fin B.length) ℂ := Matrix.diagonal fun c => ((∑ k ∈ (e c).1, eps k : ℝ) : ℂ)
  have hMW : opMat B (quadratic h) * W = W * D := by
    ext r c
    rw [Matrix.mul_diagonal]
    have h1 := coeffs_eigen hB (hsec (e c)) (slater_eigen hd (e c).1.toList)
    have h2 := congrFun h1 r
    rw [Finset.sum_map_toList] at h2
    rw [mul_comm]
    exact h2
  have hWW : Wᴴ * W = 1 := by
    ext a b
    rw [Matrix.one_apply]
    have h1 : (Wᴴ * W) a b = vdot (w (e a)) (w (e b)) := rfl
    rw [h1, ← fockInner_stateOf hB.1, stateOf_coeffs hB (hsec _), stateOf_coeffs hB (hsec _)]
    by_cases hab : a = b
    · subst hab
      rw [if_pos rfl]
      exact slater_inner_self hU _ (Finset.nodup_toList _)
    · rw [if_neg hab]
      have hne : (e a).1 ≠ (e b).1 := fun he => hab (e.injective (Subtype.ext he))
      have hnot : ¬ (e a).1 ⊆ (e b).1 := by
        intro hs
        refine hne (Finset.eq_of_subset_of_card_le hs ?_)
        rw [(Finset.mem_powersetCard.mp (e a).2).2, (Finset.mem_powersetCard.mp (e b).2).2]
      obtain ⟨k, hk, hk'⟩ := Finset.not_subset.mp hnot
      exact slater_inner_ne hU _ _ (Finset.nodup_toList _) k (Finset.mem_toList.mpr hk)
        (fun h => hk' (Finset.mem_toList.mp h))
  have hWW' : W * Wᴴ = 1 := mul_eq_one_comm.mp hWW
  have hM : opMat B (quadratic h) = W * D * Wᴴ := by
    rw [← hMW, mul_assoc, hWW', mul_one]
  rw [hM, Matrix.charpoly_mul_comm, ← mul_assoc, hWW, one_mul, Matrix.charpoly_diagonal,
    e.prod_comp fun K : P => (Polynomial.X - Polynomial.C ((∑ k ∈ K.1, eps k : ℝ) : ℂ))]
  exact Finset.prod_coe_sort P fun K => (Polynomial.X - Polynomial.C ((∑ k ∈ K, eps k : ℝ) : ℂ))

theorem quadratic_add (h h' : Matrix (Fin n) (Fin n) ℂ) : quadratic (h + h') = quadratic h + quadratic h' := by
  simp only [quadratic, Matrix.add_apply, add_smul, Finset.sum_add_distrib]

theorem quadratic_zero : quadratic (0 : Matrix (Fin n) (Fin n) ℂ) = 0 := by
  simp [quadratic]

theorem quadratic_single (i j : Fin n) (c : ℂ) :
    quadratic (Matrix.single i j c) = c • (create (i : ℕ) * annihilate (j : ℕ)) := by
  unfold quadratic
  rw [Finset.sum_eq_single i, Finset.sum_eq_single j]
  · simp
  · intro b _ hb
    rw [Matrix.single_apply_of_col_ne _ _ (fun e => hb e.symm), zero_smul]
  · intro h; exact absurd (Finset.mem_univ j) h
  · intro a _ ha
    refine Finset.sum_eq_zero fun b _ => ?_
    rw [Matrix.single_apply_of_row_ne (fun e => ha e.symm), zero_smul]
  · intro h; exact absurd (Finset.mem_univ i) h

theorem isAdj_quadratic (h : Matrix (Fin n) (Fin n) ℂ) : IsAdj (quadratic h) (quadratic hᴴ) := by
  have e : quadratic hᴴ = ∑ i : Fin n, ∑ j : Fin n, star (h i j) • (create (j : ℕ) * annihilate (i : ℕ)) := by
    unfold quadratic
    rw [Finset.sum_comm]
    rfl
  rw [e]
  exact isAdj_sum fun i _ => isAdj_sum fun j _ => isAdj_smul (isAdj_hop j i) _

theorem opMat_quadratic_adj (B : List ℕ) (h : Matrix (Fin n) (Fin n) ℂ) :
    (opMat B (quadratic h))ᴴ = opMat B (quadratic hᴴ) := by
  have := isAdj_quadratic hᴴ
  rw [Matrix.conjTranspose_conjTranspose] at this
  exact Demo.opMat_adj this

theorem charpoly_hermitian (hB : ListsSector n N B) (hh : h.IsHermitian) :
    (opMat B (quadratic h)).charpoly =
      ∏ K ∈ Finset.powersetCard N (Finset.univ : Finset (Fin n)),
        (Polynomial.X - Polynomial.C ((∑ k ∈ K, hh.eigenvalues k : ℝ) : ℂ)) := by
  set V := hh.eigenvectorUnitary with hV
  have h1 : (V : Matrix (Fin n) (Fin n) ℂ)ᴴ * (V : Matrix (Fin n) (Fin n) ℂ) = 1 := Unitary.coe_star_mul_self V
  have h3 : h * (V : Matrix (Fin n) (Fin n) ℂ) =
      (V : Matrix (Fin n) (Fin n) ℂ) * Matrix.diagonal fun k => (hh.eigenvalues k : ℂ) := by
    ext i k
    rw [Matrix.mul_diagonal, Matrix.mul_apply]
    have := congrFun (hh.mulVec_eigenvectorBasis k) i
    rw [Pi.smul_apply] at this
    simp only [hV, Matrix.IsHermitian.eigenvectorUnitary_apply]
    rw [mul_comm]
    exact this
  exact charpoly_quadratic hB h1 h3

end Verif.Free
