import Verif.Proofs.Demo
import Verif.Proofs.GreenFunction
/-!
# Lemmas for C86: momentum modes of the ring
-/

namespace Verif.Demo

open Spec Matrix Lanczos GF

/-! ### Operators between two bases -/

/-- The matrix of an operator from basis `R` to basis `L`. -/
noncomputable def opMat2 (L R : List ℕ) : Module.End ℂ Fock →ₗ[ℂ] Matrix (Fin L.length) (Fin R.length) ℂ where
  toFun O := Matrix.of fun r c => matrixElement O (occ L[r]) (occ R[c])
  map_add' O P := by ext r c; simp [matrixElement]
  map_smul' z O := by ext r c; simp [matrixElement]

theorem opMat2_apply (L R : List ℕ) (O : Module.End ℂ Fock) (r : Fin L.length) (c : Fin R.length) :
    opMat2 L R O r c = matrixElement O (occ L[r]) (occ R[c]) := rfl

theorem opMat_eq_opMat2 (B : List ℕ) (O : Module.End ℂ Fock) : opMat B O = opMat2 B B O := rfl

/-- The operator maps the span of the basis `R` into the span of the basis `L`. -/
def MapsTo (O : Module.End ℂ Fock) (R L : List ℕ) : Prop :=
  ∀ k ∈ R, ∀ U, O (ket (occ k)) U ≠ 0 → ∃ l ∈ L, U = occ l

theorem MapsTo.add {O P : Module.End ℂ Fock} {R L : List ℕ} (h : MapsTo O R L) (h' : MapsTo P R L) :
    MapsTo (O + P) R L := by
  intro k hk U hU
  rw [LinearMap.add_apply, Finsupp.add_apply] at hU
  by_cases h0 : O (ket (occ k)) U = 0
  · exact h' k hk U (by rwa [h0, zero_add] at hU)
  · exact h k hk U h0

theorem MapsTo.smul {O : Module.End ℂ Fock} {R L : List ℕ} (h : MapsTo O R L) (z : ℂ) :
    MapsTo (z • O) R L := by
  intro k hk U hU
  rw [LinearMap.smul_apply, Finsupp.smul_apply, smul_eq_mul] at hU
  exact h k hk U (right_ne_zero_of_mul hU)

theorem mapsTo_zero (R L : List ℕ) : MapsTo 0 R L := by
  intro k _ U hU
  simp at hU

theorem MapsTo.sum {ι : Type _} {s : Finset ι} {O : ι → Module.End ℂ Fock} {R L : List ℕ}
    (h : ∀ i ∈ s, MapsTo (O i) R L) : MapsTo (∑ i ∈ s, O i) R L := by
  classical
  induction s using Finset.induction_on with
  | empty => exact mapsTo_zero R L
  | insert a s ha ih =>
    rw [Finset.sum_insert ha]
    exact (h a (Finset.mem_insert_self _ _)).add (ih fun i hi => h i (Finset.mem_insert_of_mem hi))

theorem opMat2_mul {L B R : List ℕ} (hB : B.Nodup) {O P : Module.End ℂ Fock} (h : MapsTo P R B) :
    opMat2 L B O * opMat2 B R P = opMat2 L R (O * P) := by
  ext r c
  rw [Matrix.mul_apply]
  exact (apply_eq_sum O (P (ket (occ R[c]))) B hB (h _ (List.getElem_mem _)) (occ L[r])).symm

theorem opMat2_adj {L R : List ℕ} {A A' : Module.End ℂ Fock} (h : IsAdj A A') :
    (opMat2 R L A')ᴴ = opMat2 L R A := by
  ext r c
  rw [Matrix.conjTranspose_apply, opMat2_apply, opMat2_apply, h]
  rfl

theorem opMat2_one {B : List ℕ} (hB : B.Nodup) : opMat2 B B 1 = 1 := by
  ext r c
  rw [opMat2_apply]
  unfold matrixElement
  rw [Module.End.one_apply, ket, Finsupp.single_apply, Matrix.one_apply]
  congr 1
  rw [eq_iff_iff]
  constructor
  · intro h
    have h1 := occ_injective h
    exact (Fin.ext ((List.Nodup.getElem_inj_iff hB).1 h1)).symm
  · rintro rfl; rfl

/-! ### Commutators -/

theorem hop_create (a b q : ℕ) : create a * annihilate b * create q =
    create q * (create a * annihilate b) + if b = q then create a else 0 := by
  have h1 : create a * annihilate b * create q + create a * create q * annihilate b =
      if b = q then create a else 0 := by
    rw [mul_assoc, mul_assoc, ← mul_add, annihilate_create]
    split <;> simp
  have h2 : create a * create q * annihilate b + create q * (create a * annihilate b) = 0 := by
    rw [← mul_assoc (create q), ← add_mul, create_create, zero_mul]
  rw [← h1, add_comm, add_assoc, h2, add_zero]

theorem hop_annihilate (a b q : ℕ) : create a * annihilate b * annihilate q +
    (if a = q then annihilate b else 0) = annihilate q * (create a * annihilate b) := by
  have h1 : annihilate q * (create a * annihilate b) + create a * annihilate q * annihilate b =
      if a = q then annihilate b else 0 := by
    rw [← mul_assoc, ← add_mul, annihilate_create]
    by_cases h : a = q
    · simp [h]
    · simp [h, Ne.symm h]
  have h2 : create a * annihilate b * annihilate q + create a * annihilate q * annihilate b = 0 := by
    rw [mul_assoc, mul_assoc, ← mul_add, annihilate_annihilate, mul_zero]
  rw [← h1, add_left_comm, h2, add_zero]

/-! ### Momentum modes -/

/-- `sum_{s in T} sum_{j < n} w^j c_{s,j}^dagger`. -/
noncomputable def modeC (n : ℕ) (T : Finset ℕ) (w : ℂ) : Module.End ℂ Fock :=
  ∑ s ∈ T, ∑ j ∈ Finset.range n, w ^ j • create (s * n + j)

/-- `sum_{s in T} sum_{j < n} w^{-j} c_{s,j}`. -/
noncomputable def modeA (n : ℕ) (T : Finset ℕ) (w : ℂ) : Module.End ℂ Fock :=
  ∑ s ∈ T, ∑ j ∈ Finset.range n, w⁻¹ ^ j • annihilate (s * n + j)

/-- Summing over a ring, starting from site 1. -/
theorem sum_shift {M : Type _} [AddCommMonoid M] {n : ℕ} (hn : 1 ≤ n) (f : ℕ → M) :
    ∑ i ∈ Finset.range n, f ((i + 1) % n) = ∑ i ∈ Finset.range n, f i := by
  obtain ⟨q, rfl⟩ : ∃ q, n = q + 1 := ⟨n - 1, by omega⟩
  rw [Finset.sum_range_succ, Finset.sum_range_succ', Nat.mod_self]
  congr 1
  refine Finset.sum_congr rfl fun i hi => ?_
  rw [Nat.mod_eq_of_lt (by have := Finset.mem_range.1 hi; omega)]

theorem pow_mod_n {n : ℕ} {w : ℂ} (hw : w ^ n = 1) (a : ℕ) : w ^ (a % n) = w ^ a := by
  conv_rhs => rw [← Nat.div_add_mod a n, pow_add, pow_mul, hw, one_pow, one_mul]

theorem index_eq {n s s' i j : ℕ} (hi : i < n) (hj : j < n) : s * n + i = s' * n + j ↔ s = s' ∧ i = j := by
  constructor
  · intro h
    have h1 : (s * n + i) / n = (s' * n + j) / n := by rw [h]
    have h2 : (s * n + i) % n = (s' * n + j) % n := by rw [h]
    rw [mul_comm s, mul_comm s', Nat.mul_add_div (by omega), Nat.mul_add_div (by omega),
      Nat.div_eq_of_lt hi, Nat.div_eq_of_lt hj] at h1
    rw [mul_comm s, mul_comm s', Nat.mul_add_mod, Nat.mul_add_mod, Nat.mod_eq_of_lt hi,
      Nat.mod_eq_of_lt hj] at h2
    omega
  · rintro ⟨rfl, rfl⟩; rfl

theorem double_delta {M : Type _} [AddCommMonoid M] [Module ℂ M] {n : ℕ} {T : Finset ℕ} {f : ℕ → ℂ} {s i : ℕ} (hi : i < n) (x : M) :
    ∑ s' ∈ T, ∑ j ∈ Finset.range n, f j • (if s * n + i = s' * n + j then x else 0) =
      if s ∈ T then f i • x else 0 := by
  have h1 : ∀ s' ∈ T, ∑ j ∈ Finset.range n, f j • (if s * n + i = s' * n + j then x else 0) =
      if s = s' then f i • x else 0 := by
    intro s' _
    have : ∀ j ∈ Finset.range n, f j • (if s * n + i = s' * n + j then x else 0) =
        if i = j then (if s = s' then f i • x else 0) else 0 := by
      intro j hj
      by_cases hij : i = j
      · subst hij
        by_cases hs : s = s'
        · simp [hs]
        · have : ¬ (s * n + i = s' * n + i) := fun h => hs ((index_eq hi hi).1 h).1
          rw [if_neg this, if_pos rfl, if_neg hs, smul_zero]
      · have : ¬ (s * n + i = s' * n + j) := fun h => hij ((index_eq hi (Finset.mem_range.1 hj)).1 h).2
        rw [if_neg this, if_neg hij, smul_zero]
    rw [Finset.sum_congr rfl this, Finset.sum_ite_eq, if_pos (Finset.mem_range.2 hi)]
  rw [Finset.sum_congr rfl h1, Finset.sum_ite_eq]

theorem hop_modeC {n : ℕ} {T : Finset ℕ} (w : ℂ) {s i j : ℕ} (hj : j < n) :
    create (s * n + i) * annihilate (s * n + j) * modeC n T w =
      modeC n T w * (create (s * n + i) * annihilate (s * n + j)) +
        if s ∈ T then w ^ j • create (s * n + i) else 0 := by
  unfold modeC
  rw [Finset.mul_sum, Finset.sum_mul, ← double_delta hj, ← Finset.sum_add_distrib]
  refine Finset.sum_congr rfl fun s' _ => ?_
  rw [Finset.mul_sum, Finset.sum_mul, ← Finset.sum_add_distrib]
  refine Finset.sum_congr rfl fun j' _ => ?_
  rw [mul_smul_comm, hop_create, smul_mul_assoc, smul_add]

theorem hop_modeA {n : ℕ} {T : Finset ℕ} (w : ℂ) {s i j : ℕ} (hi : i < n) :
    create (s * n + i) * annihilate (s * n + j) * modeA n T w +
        (if s ∈ T then w⁻¹ ^ i • annihilate (s * n + j) else 0) =
      modeA n T w * (create (s * n + i) * annihilate (s * n + j)) := by
  unfold modeA
  rw [Finset.mul_sum, Finset.sum_mul, ← double_delta hi, ← Finset.sum_add_distrib]
  refine Finset.sum_congr rfl fun s' _ => ?_
  rw [Finset.mul_sum, Finset.sum_mul, ← Finset.sum_add_distrib]
  refine Finset.sum_congr rfl fun j' _ => ?_
  rw [mul_smul_comm, ← smul_add, hop_annihilate, smul_mul_assoc]

/-- The band energy. -/
noncomputable def band (t : ℝ) (w : ℂ) : ℂ := t * (w + w⁻¹)

theorem sum_subset_ite {M : Type _} [AddCommMonoid M] {S : ℕ} {T : Finset ℕ} (hT : T ⊆ Finset.range S) (f : ℕ → M) :
    ∑ s ∈ Finset.range S, (if s ∈ T then f s else 0) = ∑ s ∈ T, f s := by
  rw [← Finset.sum_filter, Finset.filter_mem_eq_inter, Finset.inter_eq_right.2 hT]

theorem ring_modeC {n S : ℕ} (hn : 1 ≤ n) {T : Finset ℕ} (hT : T ⊆ Finset.range S) (t : ℝ) {w : ℂ}
    (hw : w ^ n = 1) :
    ringHamiltonian n S t * modeC n T w =
      modeC n T w * ringHamiltonian n S t + band t w • modeC n T w := by
  have hw0 : w ≠ 0 := by
    rintro rfl
    rw [zero_pow (by omega)] at hw
    exact zero_ne_one hw
  have key : ∀ i ∈ Finset.range n, hopPair n S i ((i + 1) % n) * modeC n T w =
      modeC n T w * hopPair n S i ((i + 1) % n) + ∑ s ∈ T, (w • (w ^ i • create (s * n + i)) +
        w⁻¹ • (w ^ ((i + 1) % n) • create (s * n + (i + 1) % n))) := by
    intro i hi
    have hi := Finset.mem_range.1 hi
    unfold hopPair
    rw [Finset.sum_mul, Finset.mul_sum, ← sum_subset_ite hT, ← Finset.sum_add_distrib]
    refine Finset.sum_congr rfl fun s _ => ?_
    rw [add_mul, hop_modeC w (Nat.mod_lt _ hn), hop_modeC w hi, mul_add, pow_mod_n hw]
    by_cases hs : s ∈ T
    · rw [if_pos hs, if_pos hs, if_pos hs, smul_smul, smul_smul, ← pow_succ', pow_succ w i, mul_comm w⁻¹, mul_assoc,
        mul_inv_cancel₀ hw0, mul_one]
      abel
    · rw [if_neg hs, if_neg hs, if_neg hs]
      abel
  unfold ringHamiltonian
  rw [smul_mul_assoc, mul_smul_comm, Finset.sum_mul, Finset.mul_sum, Finset.sum_congr rfl key,
    Finset.sum_add_distrib, smul_add]
  congr 1
  rw [band, mul_smul]
  congr 1
  rw [Finset.sum_comm, modeC, Finset.smul_sum]
  refine Finset.sum_congr rfl fun s _ => ?_
  rw [Finset.sum_add_distrib, ← Finset.smul_sum, ← Finset.smul_sum,
    sum_shift hn fun i => w ^ i • create (s * n + i), ← add_smul]

theorem ring_modeA {n S : ℕ} (hn : 1 ≤ n) {T : Finset ℕ} (hT : T ⊆ Finset.range S) (t : ℝ) {w : ℂ}
    (hw : w ^ n = 1) :
    ringHamiltonian n S t * modeA n T w + band t w • modeA n T w =
      modeA n T w * ringHamiltonian n S t := by
  have hw0 : w ≠ 0 := by
    rintro rfl
    rw [zero_pow (by omega)] at hw
    exact zero_ne_one hw
  have hw' : w⁻¹ ^ n = 1 := by rw [inv_pow, hw, inv_one]
  have key : ∀ i ∈ Finset.range n, hopPair n S i ((i + 1) % n) * modeA n T w +
      ∑ s ∈ T, (w • (w⁻¹ ^ ((i + 1) % n) • annihilate (s * n + (i + 1) % n)) +
        w⁻¹ • (w⁻¹ ^ i • annihilate (s * n + i))) =
      modeA n T w * hopPair n S i ((i + 1) % n) := by
    intro i hi
    have hi := Finset.mem_range.1 hi
    unfold hopPair
    rw [Finset.sum_mul, Finset.mul_sum, ← sum_subset_ite hT, ← Finset.sum_add_distrib]
    refine Finset.sum_congr rfl fun s _ => ?_
    rw [mul_add, ← hop_modeA w (Nat.mod_lt _ hn), ← hop_modeA w hi, add_mul, pow_mod_n hw']
    by_cases hs : s ∈ T
    · rw [if_pos hs, if_pos hs, if_pos hs, smul_smul, smul_smul, ← pow_succ', pow_succ' w⁻¹ i, ← mul_assoc w,
        mul_inv_cancel₀ hw0, one_mul]
      abel
    · rw [if_neg hs, if_neg hs, if_neg hs]
      abel
  unfold ringHamiltonian
  rw [smul_mul_assoc, mul_smul_comm, Finset.sum_mul, Finset.mul_sum, ← Finset.sum_congr rfl key,
    Finset.sum_add_distrib, smul_add]
  congr 1
  rw [band, mul_smul]
  congr 1
  rw [Finset.sum_comm, modeA, Finset.smul_sum]
  refine Finset.sum_congr rfl fun s _ => ?_
  rw [Finset.sum_add_distrib, ← Finset.smul_sum, ← Finset.smul_sum,
    sum_shift hn fun i => w⁻¹ ^ i • annihilate (s * n + i), ← add_smul]

theorem annihilate_modeC {n : ℕ} {T : Finset ℕ} (w : ℂ) {s j : ℕ} (hj : j < n) :
    annihilate (s * n + j) * modeC n T w + modeC n T w * annihilate (s * n + j) =
      if s ∈ T then w ^ j • 1 else 0 := by
  unfold modeC
  rw [Finset.mul_sum, Finset.sum_mul, ← double_delta hj, ← Finset.sum_add_distrib]
  refine Finset.sum_congr rfl fun s' _ => ?_
  rw [Finset.mul_sum, Finset.sum_mul, ← Finset.sum_add_distrib]
  refine Finset.sum_congr rfl fun j' _ => ?_
  rw [mul_smul_comm, smul_mul_assoc, ← smul_add, annihilate_create]

/-- The momentum modes are normalised. -/
theorem mode_anticomm {n : ℕ} {T : Finset ℕ} {w : ℂ} (hw0 : w ≠ 0) :
    modeA n T w * modeC n T w + modeC n T w * modeA n T w = ((T.card * n : ℕ) : ℂ) • 1 := by
  have key : ∀ s ∈ T, (∑ j ∈ Finset.range n, w⁻¹ ^ j • annihilate (s * n + j)) * modeC n T w +
      modeC n T w * ∑ j ∈ Finset.range n, w⁻¹ ^ j • annihilate (s * n + j) = (n : ℂ) • 1 := by
    intro s hs
    rw [Finset.sum_mul, Finset.mul_sum, ← Finset.sum_add_distrib]
    have : ∀ j ∈ Finset.range n, w⁻¹ ^ j • annihilate (s * n + j) * modeC n T w +
        modeC n T w * w⁻¹ ^ j • annihilate (s * n + j) = (1 : Module.End ℂ Fock) := by
      intro j hj
      rw [smul_mul_assoc, mul_smul_comm, ← smul_add, annihilate_modeC w (Finset.mem_range.1 hj), if_pos hs,
        smul_smul, ← mul_pow, inv_mul_cancel₀ hw0, one_pow, one_smul]
    rw [Finset.sum_congr rfl this, Finset.sum_const, Finset.card_range, Nat.cast_smul_eq_nsmul]
  conv_lhs => rw [modeA]
  rw [Finset.sum_mul, Finset.mul_sum, ← Finset.sum_add_distrib, Finset.sum_congr rfl key, Finset.sum_const,
    ← Nat.cast_smul_eq_nsmul ℂ, smul_smul, Nat.cast_mul]

end Verif.Demo
