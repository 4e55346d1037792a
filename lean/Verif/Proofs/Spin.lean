import Verif.Proofs.SpinAlgebra
import Verif.Proofs.PyLemmas
import Mathlib.Tactic.LinearCombination
/-! The model's spin matrices are the specified operators. -/

namespace Verif
open Spec

theorem spinMatrix_dim (o : SpinOtype) : (spinMatrix o).dim = 2 := by cases o <;> rfl

theorem spinMatrix_get (o : SpinOtype) (r c : Fin 2) : (spinMatrix o).get r c = spinHalf o r c := by
  cases o <;> fin_cases r <;> fin_cases c <;> simp [spinMatrix, spinHalf] <;> ring

theorem shl1_ok {k : ℤ} {d : ℕ} (h : shl1 k = .ok d) : 0 ≤ k ∧ d = 2 ^ k.toNat := by
  unfold shl1 at h
  split at h
  · cases h
  · cases h
    exact ⟨by omega, by rw [Nat.one_shiftLeft]⟩

theorem shl1_of_nonneg {k : ℤ} (h : 0 ≤ k) : shl1 k = .ok (2 ^ k.toNat) := by
  unfold shl1
  rw [if_neg (by omega), Nat.one_shiftLeft]

theorem shl1_of_neg {k : ℤ} (h : k < 0) : shl1 k = .error .valueError := by
  unfold shl1
  rw [if_pos h]

/-- the entries of `I ⊗ S ⊗ I` -/
theorem single_get_of (n i : ℕ) (hi : i < n) (S : SMat) (hS : S.dim = 2)
    (A : Matrix (Fin 2) (Fin 2) ℂ) (hA : ∀ r c : Fin 2, S.get r c = A r c) (a b : Fin (2 ^ n)) :
    (SMat.kron (SMat.identity (2 ^ (n - i - 1)))
      (SMat.kron S (SMat.identity (2 ^ i)))).get a b = siteOp n i A a b := by
  unfold siteOp
  simp only [SMat.kron, SMat.identity, hS, Matrix.of_apply]
  have hdig : ∀ x : ℕ, x % (2 * 2 ^ i) / 2 ^ i = (digit x i).1 := by
    intro x
    unfold digit
    simp only
    rw [mul_comm, Nat.mod_mul_right_div_self]
  have hmod : ∀ x : ℕ, x % (2 * 2 ^ i) % 2 ^ i = x % 2 ^ i := by
    intro x
    exact Nat.mod_mod_of_dvd _ (Dvd.intro_left _ rfl)
  rw [hdig, hdig, hmod, hmod, hA]
  have hiff : (a.1 / (2 * 2 ^ i) = b.1 / (2 * 2 ^ i) ∧ a.1 % 2 ^ i = b.1 % 2 ^ i) ↔
      ∀ j < n, j ≠ i → digit a j = digit b j := by
    have h2 : 2 * 2 ^ i = 2 ^ (i + 1) := by rw [pow_succ, mul_comm]
    rw [h2]
    constructor
    · rintro ⟨h1, h3⟩ j hj hne
      rw [digit_eq_iff]
      rcases Nat.lt_or_gt_of_ne hne with h | h
      · have := congrArg (fun x => x.testBit j) h3
        simpa [Nat.testBit_mod_two_pow, h] using this
      · have := congrArg (fun x => x.testBit (j - (i + 1))) h1
        simp only [Nat.testBit_div_two_pow] at this
        rwa [show j - (i + 1) + (i + 1) = j by omega] at this
    · intro h
      constructor
      · apply Nat.eq_of_testBit_eq
        intro j
        simp only [Nat.testBit_div_two_pow]
        by_cases hj : j + (i + 1) < n
        · exact (digit_eq_iff _ _ _ _).mp (h _ hj (by omega))
        · rw [Nat.testBit_lt_two_pow (lt_of_lt_of_le a.2 (Nat.pow_le_pow_right (by norm_num) (by omega))),
            Nat.testBit_lt_two_pow (lt_of_lt_of_le b.2 (Nat.pow_le_pow_right (by norm_num) (by omega)))]
      · apply Nat.eq_of_testBit_eq
        intro j
        simp only [Nat.testBit_mod_two_pow]
        by_cases hj : j < i
        · simp only [hj, decide_true, Bool.true_and]
          exact (digit_eq_iff _ _ _ _).mp (h _ (by omega) (by omega))
        · simp [hj]
  by_cases h : ∀ j < n, j ≠ i → digit a j = digit b j
  · obtain ⟨h1, h3⟩ := hiff.mpr h
    rw [if_pos h1, if_pos h3, if_pos h]
    ring
  · rw [if_neg h]
    have : ¬ (a.1 / (2 * 2 ^ i) = b.1 / (2 * 2 ^ i) ∧ a.1 % 2 ^ i = b.1 % 2 ^ i) := fun h' =>
      h (hiff.mp h')
    by_cases h1 : a.1 / (2 * 2 ^ i) = b.1 / (2 * 2 ^ i)
    · rw [if_neg (c := a.1 % 2 ^ i = b.1 % 2 ^ i) (fun h3 => this ⟨h1, h3⟩)]
      ring
    · rw [if_neg h1]; ring

theorem single_get (n i : ℕ) (hi : i < n) (o : SpinOtype) (a b : Fin (2 ^ n)) :
    (SMat.kron (SMat.identity (2 ^ (n - i - 1)))
      (SMat.kron (spinMatrix o) (SMat.identity (2 ^ i)))).get a b = siteOp n i (spinHalf o) a b :=
  single_get_of n i hi _ (spinMatrix_dim o) _ (spinMatrix_get o) a b

theorem single_dim (n i : ℕ) (hi : i < n) (o : SpinOtype) :
    (SMat.kron (SMat.identity (2 ^ (n - i - 1)))
      (SMat.kron (spinMatrix o) (SMat.identity (2 ^ i)))).dim = 2 ^ n := by
  simp only [SMat.kron, SMat.identity, spinMatrix_dim]
  rw [show 2 * 2 ^ i = 2 ^ (i + 1) by rw [pow_succ, mul_comm], ← pow_add]
  congr 1
  omega

/-- M represents the matrix X -/
def Repr (n : ℕ) (M : SMat) (X : Matrix (Fin (2 ^ n)) (Fin (2 ^ n)) ℂ) : Prop :=
  M.dim = 2 ^ n ∧ M.toMatrix (2 ^ n) = X

theorem single_repr (n i : ℕ) (hi : i < n) (o : SpinOtype) :
    Repr n (SMat.kron (SMat.identity (2 ^ (n - i - 1)))
      (SMat.kron (spinMatrix o) (SMat.identity (2 ^ i)))) (siteOp n i (spinHalf o)) := by
  refine ⟨single_dim n i hi o, ?_⟩
  ext a b
  exact single_get n i hi o a b

theorem dot_repr {n : ℕ} {A B : SMat} {X Y : Matrix (Fin (2 ^ n)) (Fin (2 ^ n)) ℂ}
    (hA : Repr n A X) (hB : Repr n B Y) : ∃ M, A.dot B = .ok M ∧ Repr n M (X * Y) := by
  unfold SMat.dot
  rw [if_pos (hA.1.trans hB.1.symm)]
  refine ⟨_, rfl, hA.1, ?_⟩
  ext a b
  rw [Matrix.mul_apply]
  simp only [SMat.toMatrix, Matrix.of_apply, hA.1, Finset.sum_range]
  apply Finset.sum_congr rfl
  intro k _
  rw [← hA.2, ← hB.2]
  rfl

theorem smul_repr {n : ℕ} {A : SMat} {X : Matrix (Fin (2 ^ n)) (Fin (2 ^ n)) ℂ} (c : ℂ)
    (hA : Repr n A X) : Repr n (SMat.smul c A) (c • X) := by
  refine ⟨hA.1, ?_⟩
  rw [← hA.2]
  ext a b
  simp [SMat.toMatrix, SMat.smul]

theorem identity_repr (n : ℕ) : Repr n (SMat.identity (2 ^ n)) 1 := by
  refine ⟨rfl, ?_⟩
  ext a b
  simp only [SMat.toMatrix, SMat.identity, Matrix.of_apply, Matrix.one_apply, Fin.ext_iff]

theorem matrixFunction_single (i n : ℤ) (o : SpinOtype) :
    (0 ≤ i → i < n → ∃ M, SpinOperator.matrixFunction (i, o) n = .ok M ∧
      Repr n.toNat M (siteOp n.toNat i.toNat (spinHalf o))) ∧
    (¬ (0 ≤ i ∧ i < n) → SpinOperator.matrixFunction (i, o) n = .error .valueError) := by
  unfold SpinOperator.matrixFunction
  constructor
  · intro h0 hn
    simp only [shl1_of_nonneg h0, shl1_of_nonneg (show 0 ≤ n - i - 1 by omega), bind, Except.bind,
      pure, Except.pure]
    refine ⟨_, rfl, ?_⟩
    have : (n - i - 1).toNat = n.toNat - i.toNat - 1 := by omega
    rw [this]
    exact single_repr _ _ (by omega) o
  · intro h
    by_cases h0 : 0 ≤ i
    · simp only [shl1_of_nonneg h0, shl1_of_neg (show n - i - 1 < 0 by omega), bind, Except.bind]
    · simp only [shl1_of_neg (show i < 0 by omega), bind, Except.bind]

/-- the operator of an indexed list of spin operators -/
noncomputable def opsProduct (n : ℕ) (ops : List (ℤ × SpinOtype)) :
    Matrix (Fin (2 ^ n)) (Fin (2 ^ n)) ℂ :=
  (ops.map (fun p => siteOp n p.1.toNat (spinHalf p.2))).prod

theorem dotLoop_repr (n : ℤ) (ops : List (ℤ × SpinOtype)) (hops : ∀ p ∈ ops, 0 ≤ p.1 ∧ p.1 < n)
    (M : SMat) (X : Matrix (Fin (2 ^ n.toNat)) (Fin (2 ^ n.toNat)) ℂ) (hM : Repr n.toNat M X) :
    ∃ R, SpinInteraction.dotLoop n ops M = .ok R ∧ Repr n.toNat R (X * opsProduct n.toNat ops) := by
  induction ops generalizing M X with
  | nil => exact ⟨M, rfl, by simpa [opsProduct] using hM⟩
  | cons p ops ih =>
    obtain ⟨h0, hn⟩ := hops p (by simp)
    have hs := single_repr n.toNat p.1.toNat (by omega) p.2
    have hd : (n - p.1 - 1).toNat = n.toNat - p.1.toNat - 1 := by omega
    obtain ⟨R, hR, hR'⟩ := dot_repr hM hs
    obtain ⟨R2, hR2, hR2'⟩ := ih (fun q hq => hops q (by simp [hq])) R _ hR'
    refine ⟨R2, ?_, ?_⟩
    · unfold SpinInteraction.dotLoop
      simp only [shl1_of_nonneg h0, shl1_of_nonneg (show 0 ≤ n - p.1 - 1 by omega), bind,
        Except.bind, hd, hR]
      exact hR2
    · rw [mul_assoc] at hR2'
      simpa [opsProduct] using hR2'

theorem dotLoop_error (n : ℤ) (ops : List (ℤ × SpinOtype)) (hops : ¬ ∀ p ∈ ops, 0 ≤ p.1 ∧ p.1 < n)
    (M : SMat) (X : Matrix (Fin (2 ^ n.toNat)) (Fin (2 ^ n.toNat)) ℂ) (hM : Repr n.toNat M X) :
    SpinInteraction.dotLoop n ops M = .error .valueError := by
  induction ops generalizing M X with
  | nil => simp at hops
  | cons p ops ih =>
    unfold SpinInteraction.dotLoop
    by_cases hp : 0 ≤ p.1 ∧ p.1 < n
    · obtain ⟨h0, hn⟩ := hp
      have hs := single_repr n.toNat p.1.toNat (by omega) p.2
      have hd : (n - p.1 - 1).toNat = n.toNat - p.1.toNat - 1 := by omega
      obtain ⟨R, hR, hR'⟩ := dot_repr hM hs
      simp only [shl1_of_nonneg h0, shl1_of_nonneg (show 0 ≤ n - p.1 - 1 by omega), bind,
        Except.bind, hd, hR]
      apply ih _ R _ hR'
      intro h
      apply hops
      intro q hq
      rcases List.mem_cons.mp hq with rfl | hq
      · exact ⟨h0, hn⟩
      · exact h q hq
    · by_cases h0 : 0 ≤ p.1
      · simp only [shl1_of_nonneg h0, shl1_of_neg (show n - p.1 - 1 < 0 by omega), bind, Except.bind]
      · simp only [shl1_of_neg (show p.1 < 0 by omega), bind, Except.bind]

/-! ### the two-operator branch -/

/-- equality of matrices up to their dimension -/
def SMat.Same (A B : SMat) : Prop := A.dim = B.dim ∧ ∀ r < A.dim, ∀ c < A.dim, A.get r c = B.get r c

theorem SMat.Same.refl (A : SMat) : A.Same A := ⟨rfl, fun _ _ _ _ => rfl⟩

theorem SMat.Same.trans {A B C : SMat} (h : A.Same B) (h' : B.Same C) : A.Same C :=
  ⟨h.1.trans h'.1, fun r hr c hc => (h.2 r hr c hc).trans
    (h'.2 r (h.1 ▸ hr) c (h.1 ▸ hc))⟩

theorem SMat.Same.symm {A B : SMat} (h : A.Same B) : B.Same A :=
  ⟨h.1.symm, fun r hr c hc => (h.2 r (h.1 ▸ hr) c (h.1 ▸ hc)).symm⟩

theorem kron_identity_one_left (A : SMat) : (SMat.kron (SMat.identity 1) A).Same A := by
  refine ⟨by simp [SMat.kron, SMat.identity], ?_⟩
  intro r hr c hc
  have hd : (SMat.kron (SMat.identity 1) A).dim = A.dim := by simp [SMat.kron, SMat.identity]
  rw [hd] at hr hc
  simp [SMat.kron, SMat.identity, Nat.div_eq_of_lt hr, Nat.div_eq_of_lt hc, Nat.mod_eq_of_lt hr,
    Nat.mod_eq_of_lt hc]

theorem kron_identity_one_right (A : SMat) : (SMat.kron A (SMat.identity 1)).Same A := by
  refine ⟨by simp [SMat.kron, SMat.identity], ?_⟩
  intro r _ c _
  simp [SMat.kron, SMat.identity, Nat.mod_one]

theorem kron_congr {A A' B B' : SMat} (hA : A.Same A') (hB : B.Same B') :
    (SMat.kron A B).Same (SMat.kron A' B') := by
  refine ⟨by simp [SMat.kron, hA.1, hB.1], ?_⟩
  intro r hr c hc
  simp only [SMat.kron] at hr hc ⊢
  have hpos : 0 < B.dim := by
    rcases Nat.eq_zero_or_pos B.dim with h | h
    · rw [h, mul_zero] at hr; omega
    · exact h
  rw [← hB.1, hA.2 _ (Nat.div_lt_of_lt_mul (by rwa [mul_comm])) _
      (Nat.div_lt_of_lt_mul (by rwa [mul_comm])),
    hB.2 _ (Nat.mod_lt _ hpos) _ (Nat.mod_lt _ hpos)]

/-- the two-operator matrix without the shortcuts for factors of dimension 1 -/
noncomputable def twoFull (n i j : ℕ) (alpha beta : SpinOtype) (c : ℂ) : SMat :=
  SMat.kron (SMat.identity (2 ^ (n - i - 1)))
    (SMat.kron (SMat.kron (SMat.smul c (spinMatrix alpha))
      (SMat.kron (SMat.identity (2 ^ (i - j - 1))) (spinMatrix beta))) (SMat.identity (2 ^ j)))

theorem twoFull_repr (n i j : ℕ) (hi : i < n) (hij : j < i) (alpha beta : SpinOtype) (c : ℂ) :
    Repr n (twoFull n i j alpha beta c)
      (c • (siteOp n i (spinHalf alpha) * siteOp n j (spinHalf beta))) := by
  classical
  have e1 : 2 ^ (i - j - 1) * 2 = 2 ^ (i - j) := by
    rw [← pow_succ]; congr 1; omega
  have e2 : 2 * 2 ^ (i - j) * 2 ^ j = 2 ^ (i + 1) := by
    rw [mul_assoc, ← pow_add, show i - j + j = i by omega, pow_succ, mul_comm]
  constructor
  · simp only [twoFull, SMat.kron, SMat.identity, SMat.smul, spinMatrix_dim, e1, e2]
    rw [← pow_add]; congr 1; omega
  · ext a b
    rw [Matrix.smul_apply, siteOp_mul_ne n i j (by omega) (by omega)]
    simp only [SMat.toMatrix, twoFull, SMat.kron, SMat.identity, SMat.smul, spinMatrix_dim,
      Matrix.of_apply, e1, e2, smul_eq_mul]
    have htb : ∀ (x y : ℕ), x = y ↔ ∀ k, x.testBit k = y.testBit k := fun x y =>
      ⟨fun h k => by rw [h], fun h => Nat.eq_of_testBit_eq h⟩
    have hdi : ∀ x : ℕ, x % 2 ^ (i + 1) / 2 ^ j / 2 ^ (i - j) = (digit x i).1 := by
      intro x
      unfold digit
      simp only
      rw [Nat.div_div_eq_div_mul, ← pow_add, show j + (i - j) = i by omega, pow_succ,
        Nat.mod_mul_right_div_self]
    have hdj : ∀ x : ℕ, x % 2 ^ (i + 1) / 2 ^ j % 2 ^ (i - j) % 2 = (digit x j).1 := by
      intro x
      unfold digit
      simp only
      rw [Nat.mod_mod_of_dvd _ (dvd_pow_self 2 (by omega))]
      have : (2 : ℕ) ^ (i + 1) = 2 ^ j * 2 ^ (i + 1 - j) := by rw [← pow_add]; congr 1; omega
      rw [this, Nat.mod_mul_right_div_self, Nat.mod_mod_of_dvd _ (dvd_pow_self 2 (by omega))]
    rw [hdi, hdi, hdj, hdj, spinMatrix_get, spinMatrix_get]
    have hiff : (a.1 / 2 ^ (i + 1) = b.1 / 2 ^ (i + 1) ∧
        a.1 % 2 ^ (i + 1) / 2 ^ j % 2 ^ (i - j) / 2 = b.1 % 2 ^ (i + 1) / 2 ^ j % 2 ^ (i - j) / 2 ∧
        a.1 % 2 ^ (i + 1) % 2 ^ j = b.1 % 2 ^ (i + 1) % 2 ^ j) ↔
        ∀ k < n, k ≠ i → k ≠ j → digit a k = digit b k := by
      simp only [htb, Nat.testBit_div_two_pow, Nat.testBit_mod_two_pow, Nat.testBit_div_two]
      constructor
      · rintro ⟨h1, h2, h3⟩ k hk hki hkj
        rw [digit_eq_iff]
        rcases Nat.lt_or_ge k j with h | h
        · have := h3 k
          simpa [h, show k < i + 1 by omega] using this
        · rcases Nat.lt_or_ge k i with h' | h'
          · have := h2 (k - j - 1)
            simp only [show k - j - 1 + 1 < i - j by omega, show k - j - 1 + 1 + j = k by omega,
              show k < i + 1 by omega, decide_true, Bool.true_and] at this
            exact this
          · have := h1 (k - (i + 1))
            rwa [show k - (i + 1) + (i + 1) = k by omega] at this
      · intro h
        have hb : ∀ k, k ≠ i → k ≠ j → a.1.testBit k = b.1.testBit k := by
          intro k hki hkj
          by_cases hk : k < n
          · exact (digit_eq_iff _ _ _ _).mp (h k hk hki hkj)
          · rw [Nat.testBit_lt_two_pow (lt_of_lt_of_le a.2 (Nat.pow_le_pow_right (by norm_num) (by omega))),
              Nat.testBit_lt_two_pow (lt_of_lt_of_le b.2 (Nat.pow_le_pow_right (by norm_num) (by omega)))]
        refine ⟨?_, ?_, ?_⟩
        · intro k; exact hb _ (by omega) (by omega)
        · intro k
          by_cases hk : k + 1 < i - j
          · rw [hb (k + 1 + j) (by omega) (by omega)]
          · simp [hk]
        · intro k
          by_cases hk : k < j
          · rw [hb k (by omega) (by omega)]
          · simp [hk]
    by_cases h : ∀ k < n, k ≠ i → k ≠ j → digit a k = digit b k
    · obtain ⟨h1, h2, h3⟩ := hiff.mpr h
      rw [if_pos h1, if_pos h2, if_pos h3, if_pos h]
      ring
    · rw [if_neg h]
      by_cases h1 : a.1 / 2 ^ (i + 1) = b.1 / 2 ^ (i + 1)
      · by_cases h2 : a.1 % 2 ^ (i + 1) / 2 ^ j % 2 ^ (i - j) / 2 =
            b.1 % 2 ^ (i + 1) / 2 ^ j % 2 ^ (i - j) / 2
        · by_cases h3 : a.1 % 2 ^ (i + 1) % 2 ^ j = b.1 % 2 ^ (i + 1) % 2 ^ j
          · exact absurd (hiff.mp ⟨h1, h2, h3⟩) h
          · simp [h3]
        · simp [h2]
      · simp [h1]

theorem Repr.of_same {n : ℕ} {A B : SMat} {X : Matrix (Fin (2 ^ n)) (Fin (2 ^ n)) ℂ}
    (hA : Repr n A X) (h : B.Same A) : Repr n B X := by
  refine ⟨h.1.trans hA.1, ?_⟩
  rw [← hA.2]
  ext a b
  have hd : B.dim = 2 ^ n := h.1.trans hA.1
  exact h.2 a (by rw [hd]; exact a.2) b (by rw [hd]; exact b.2)

theorem twoSpin_repr (n i j : ℤ) (hj : 0 ≤ j) (hij : j < i) (hi : i < n) (alpha beta : SpinOtype)
    (c : ℂ) : ∃ M, SpinInteraction.twoSpin i alpha j beta n c = .ok M ∧
      Repr n.toNat M (c • (siteOp n.toNat i.toNat (spinHalf alpha) *
        siteOp n.toNat j.toNat (spinHalf beta))) := by
  unfold SpinInteraction.twoSpin
  simp only [shl1_of_nonneg hj, shl1_of_nonneg (show 0 ≤ i - j - 1 by omega),
    shl1_of_nonneg (show 0 ≤ n - i - 1 by omega), bind, Except.bind, pure, Except.pure]
  refine ⟨_, rfl, ?_⟩
  refine (twoFull_repr n.toNat i.toNat j.toNat (by omega) (by omega) alpha beta c).of_same ?_
  unfold twoFull
  rw [show (n - i - 1).toNat = n.toNat - i.toNat - 1 by omega,
    show (i - j - 1).toNat = i.toNat - j.toNat - 1 by omega]
  have h1 : (if 2 ^ (i.toNat - j.toNat - 1) = 1 then
        SMat.kron (SMat.smul c (spinMatrix alpha)) (spinMatrix beta)
      else SMat.kron (SMat.smul c (spinMatrix alpha))
        (SMat.kron (SMat.identity (2 ^ (i.toNat - j.toNat - 1))) (spinMatrix beta))).Same
      (SMat.kron (SMat.smul c (spinMatrix alpha))
        (SMat.kron (SMat.identity (2 ^ (i.toNat - j.toNat - 1))) (spinMatrix beta))) := by
    split
    · rename_i h
      rw [h]
      exact kron_congr (.refl _) (kron_identity_one_left _).symm
    · exact .refl _
  revert h1
  generalize (if 2 ^ (i.toNat - j.toNat - 1) = 1 then
        SMat.kron (SMat.smul c (spinMatrix alpha)) (spinMatrix beta)
      else SMat.kron (SMat.smul c (spinMatrix alpha))
        (SMat.kron (SMat.identity (2 ^ (i.toNat - j.toNat - 1))) (spinMatrix beta))) = A
  generalize (SMat.kron (SMat.smul c (spinMatrix alpha))
        (SMat.kron (SMat.identity (2 ^ (i.toNat - j.toNat - 1))) (spinMatrix beta))) = B
  intro h1
  have h2 : (if 2 ^ j.toNat ≠ 1 then SMat.kron A (SMat.identity (2 ^ j.toNat)) else A).Same
      (SMat.kron B (SMat.identity (2 ^ j.toNat))) := by
    split
    · exact kron_congr h1 (.refl _)
    · rename_i h
      simp only [ne_eq, not_not] at h
      rw [h]
      exact h1.trans (kron_identity_one_right _).symm
  revert h2
  generalize (if 2 ^ j.toNat ≠ 1 then SMat.kron A (SMat.identity (2 ^ j.toNat)) else A) = A2
  generalize SMat.kron B (SMat.identity (2 ^ j.toNat)) = B2
  intro h2
  split
  · exact kron_congr (.refl _) h2
  · rename_i h
    simp only [ne_eq, not_not] at h
    rw [h]
    exact h2.trans (kron_identity_one_left _).symm

theorem twoSpin_error (n i j : ℤ) (hij : j < i) (h : ¬ (0 ≤ j ∧ i < n)) (alpha beta : SpinOtype)
    (c : ℂ) : SpinInteraction.twoSpin i alpha j beta n c = .error .valueError := by
  unfold SpinInteraction.twoSpin
  by_cases h0 : 0 ≤ j
  · simp only [shl1_of_nonneg h0, shl1_of_nonneg (show 0 ≤ i - j - 1 by omega),
      shl1_of_neg (show n - i - 1 < 0 by omega), bind, Except.bind]
  · simp only [shl1_of_neg (show j < 0 by omega), bind, Except.bind]

/-! ### sorting -/

/-- inserting an element does not change a product if the elements it passes commute with it -/
theorem prod_orderedInsert {α M : Type _} [Monoid M] (r : α → α → Prop) [DecidableRel r] (f : α → M)
    (a : α) (l : List α) (h : ∀ b ∈ l, ¬ r a b → Commute (f a) (f b)) :
    ((l.orderedInsert r a).map f).prod = f a * (l.map f).prod := by
  induction l with
  | nil => simp
  | cons b l ih =>
    rw [List.orderedInsert]
    split
    · simp
    · rename_i hr
      rw [List.map_cons, List.prod_cons, ih (fun c hc => h c (by simp [hc])), List.map_cons,
        List.prod_cons, ← mul_assoc, ← mul_assoc, (h b (by simp) hr).eq]

/-- a stable sort does not change a product if elements with different keys commute -/
theorem prod_pySorted {α κ M : Type _} [Monoid M] (lt : κ → κ → Bool) (key : α → κ) (f : α → M)
    (l : List α)
    (h : ∀ a ∈ l, ∀ b ∈ l, lt (key b) (key a) = true → Commute (f a) (f b)) :
    ((pySorted lt key l).map f).prod = (l.map f).prod := by
  unfold pySorted
  induction l with
  | nil => simp
  | cons a l ih =>
    rw [List.insertionSort_cons, prod_orderedInsert, ih, List.map_cons, List.prod_cons]
    · intro b hb c hc
      exact h b (by simp [hb]) c (by simp [hc])
    · intro b hb hr
      rw [List.mem_insertionSort] at hb
      exact h a (by simp) b (by simp [hb]) (by simpa using hr)

theorem mem_pySorted {α κ : Type _} (lt : κ → κ → Bool) (key : α → κ) (l : List α) (a : α) :
    a ∈ pySorted lt key l ↔ a ∈ l := List.mem_insertionSort _

theorem perm_pySorted {α κ : Type _} (lt : κ → κ → Bool) (key : α → κ) (l : List α) :
    (pySorted lt key l).Perm l := List.perm_insertionSort _ _

theorem sortedMatrix_repr (ops : List (ℤ × SpinOtype)) (n : ℤ) (c : ℂ) (hn : 0 < n) :
    ((∀ p ∈ ops, 0 ≤ p.1 ∧ p.1 < n) → ∃ M, SpinInteraction.sortedMatrix ops n c = .ok M ∧
      Repr n.toNat M (c • opsProduct n.toNat ops)) ∧
    ((¬ ∀ p ∈ ops, 0 ≤ p.1 ∧ p.1 < n) →
      SpinInteraction.sortedMatrix ops n c = .error .valueError) := by
  have hid := smul_repr c (identity_repr n.toNat)
  have gen : ((∀ p ∈ ops, 0 ≤ p.1 ∧ p.1 < n) → ∃ M, (do
        let d ← shl1 n
        SpinInteraction.dotLoop n ops (SMat.smul c (SMat.identity d)) : Py SMat) = .ok M ∧
      Repr n.toNat M (c • opsProduct n.toNat ops)) ∧
    ((¬ ∀ p ∈ ops, 0 ≤ p.1 ∧ p.1 < n) → (do
        let d ← shl1 n
        SpinInteraction.dotLoop n ops (SMat.smul c (SMat.identity d)) : Py SMat) =
          .error .valueError) := by
    simp only [shl1_of_nonneg (le_of_lt hn), bind, Except.bind]
    constructor
    · intro h
      obtain ⟨R, hR, hR'⟩ := dotLoop_repr n ops h _ _ hid
      refine ⟨R, hR, ?_⟩
      rwa [smul_mul_assoc, one_mul] at hR'
    · intro h
      exact dotLoop_error n ops h _ _ hid
  unfold SpinInteraction.sortedMatrix
  split
  · rename_i i alpha j beta
    split
    · rename_i hij
      have hij : j < i := hij
      constructor
      · intro h
        have h1 := h (i, alpha) (by simp)
        have h2 := h (j, beta) (by simp)
        simp only at h1 h2
        obtain ⟨M, hM, hM'⟩ := twoSpin_repr n i j (by omega) hij (by omega) alpha beta c
        refine ⟨M, hM, ?_⟩
        simpa [opsProduct] using hM'
      · intro h
        apply twoSpin_error n i j hij
        rintro ⟨h1, h2⟩
        apply h
        intro p hp
        simp only [List.mem_cons, List.not_mem_nil, or_false] at hp
        rcases hp with rfl | rfl <;> simp <;> omega
    · exact gen
  · exact gen

theorem interaction_matrixFunction (ops : List (ℤ × SpinOtype)) (n : ℤ) (c : ℂ) (hn : 0 < n) :
    ((∀ p ∈ ops, 0 ≤ p.1 ∧ p.1 < n) → ∃ M, SpinInteraction.matrixFunction ops n c = .ok M ∧
      Repr n.toNat M (c • opsProduct n.toNat ops)) ∧
    ((¬ ∀ p ∈ ops, 0 ≤ p.1 ∧ p.1 < n) →
      SpinInteraction.matrixFunction ops n c = .error .valueError) := by
  unfold SpinInteraction.matrixFunction
  have hassert : pyAssert (decide (n > 0)) = .ok () := by simp [pyAssert, hn]
  rw [hassert]
  simp only [bind, Except.bind]
  have := sortedMatrix_repr (pySorted (fun a b => decide (a > b)) Prod.fst ops) n c hn
  simp only [mem_pySorted] at this
  refine ⟨?_, this.2⟩
  intro h
  obtain ⟨M, hM, hM'⟩ := this.1 h
  refine ⟨M, hM, ?_⟩
  have hp : opsProduct n.toNat (pySorted (fun a b => decide (a > b)) Prod.fst ops) =
      opsProduct n.toNat ops := by
    unfold opsProduct
    apply prod_pySorted
    intro a ha b hb hab
    have h1 := h a ha
    have h2 := h b hb
    simp only [gt_iff_lt, decide_eq_true_eq] at hab
    exact siteOp_comm _ _ _ (by omega) (by omega) (by omega) _ _
  rwa [hp] at hM'

end Verif
