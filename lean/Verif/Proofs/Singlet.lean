import Verif.Proofs.Marshall
/-!
# Lemmas for C131: raising and lowering, and the singlet of pairs
-/

namespace Verif.LDB

open Verif.Spec Matrix

variable {n : ℕ}

/-- The state with spin `j` turned over. -/
noncomputable def turned (j : Fin n) (a : Fin (2 ^ n)) : Fin (2 ^ n) :=
  ⟨a ^^^ 2 ^ (j : ℕ), Nat.xor_lt_two_pow a.2 (Nat.pow_lt_pow_right (by norm_num) j.2)⟩

theorem digit_turned_ne {j k : Fin n} (h : k ≠ j) (a : Fin (2 ^ n)) : digit (turned j a) k = digit a k := by
  rw [digit_eq_iff]
  exact (testBit_xor_pow _ _ _).trans (if_neg fun e => h (Fin.ext e))

theorem digit_turned_self (j : Fin n) (a : Fin (2 ^ n)) : digit (turned j a) j ≠ digit a j := by
  rw [Ne, digit_eq_iff]
  have := testBit_xor_pow (a : ℕ) j j
  rw [if_pos rfl] at this
  change ¬ (((a : ℕ) ^^^ 2 ^ (j : ℕ)).testBit j = _)
  rw [this]
  simp

theorem turned_self (j : Fin n) (a : Fin (2 ^ n)) : digit (turned j a) j = digit a j + 1 := by
  have := digit_turned_self j a
  revert this
  generalize digit (turned j a) j = p
  generalize digit a j = q
  revert p q
  decide

/-- A one-spin operator on a state. -/
theorem siteOp_mulVec (j : Fin n) (B : Matrix (Fin 2) (Fin 2) ℂ) (w : Fin (2 ^ n) → ℂ) (a : Fin (2 ^ n)) :
    (siteOp n j B *ᵥ w) a = B (digit a j) (digit a j) * w a + B (digit a j) (digit a j + 1) * w (turned j a) := by
  have hne : a ≠ turned j a := fun h => digit_turned_self j a (by rw [← h])
  unfold Matrix.mulVec dotProduct
  rw [Finset.sum_eq_add a (turned j a) hne]
  · unfold siteOp
    simp only [Matrix.of_apply]
    rw [if_pos fun _ _ _ => trivial, if_pos, turned_self]
    intro k hk hkj
    exact (digit_turned_ne (k := ⟨k, hk⟩) (fun e => hkj (congrArg Fin.val e)) a).symm
  · intro c _ ⟨h1, h2⟩
    unfold siteOp
    simp only [Matrix.of_apply]
    rw [if_neg, zero_mul]
    intro h
    have hc : ∀ k : Fin n, k ≠ j → digit a k = digit c k := fun k hk => h k k.2 fun e => hk (Fin.ext e)
    by_cases hj : digit c j = digit a j
    · refine h1 (config_ext fun k => ?_)
      by_cases hk : k = j
      · rw [hk, hj]
      · exact (hc k hk).symm
    · refine h2 (config_ext fun k => ?_)
      by_cases hk : k = j
      · rw [hk, turned_self]
        revert hj
        generalize digit c j = p
        generalize digit a j = q
        revert p q
        decide
      · rw [digit_turned_ne hk, hc k hk]
  · intro h; exact absurd (Finset.mem_univ _) h
  · intro h; exact absurd (Finset.mem_univ _) h

theorem total_mulVec (o : SpinOtype) (w : Fin (2 ^ n) → ℂ) (a : Fin (2 ^ n)) :
    (totalSpinOp n o *ᵥ w) a = ∑ j : Fin n, (spinHalf o (digit a j) (digit a j) * w a +
      spinHalf o (digit a j) (digit a j + 1) * w (turned j a)) := by
  unfold totalSpinOp
  rw [Finset.sum_range, Matrix.sum_mulVec, Finset.sum_apply]
  exact Finset.sum_congr rfl fun j _ => siteOp_mulVec j _ w a

theorem raise_apply (w : Fin (2 ^ n) → ℂ) (a : Fin (2 ^ n)) :
    (totalSpinOp n .p *ᵥ w) a = ∑ j : Fin n, if digit a j = 0 then w (turned j a) else 0 := by
  rw [total_mulVec]
  refine Finset.sum_congr rfl fun j _ => ?_
  generalize digit a j = q
  fin_cases q <;> simp [spinHalf]

theorem lower_apply (w : Fin (2 ^ n) → ℂ) (a : Fin (2 ^ n)) :
    (totalSpinOp n .m *ᵥ w) a = ∑ j : Fin n, if digit a j = 1 then w (turned j a) else 0 := by
  rw [total_mulVec]
  refine Finset.sum_congr rfl fun j _ => ?_
  generalize digit a j = q
  fin_cases q <;> simp [spinHalf]

theorem sz_apply (w : Fin (2 ^ n) → ℂ) (a : Fin (2 ^ n)) :
    (totalSpinOp n .z *ᵥ w) a = ((n : ℂ) / 2 - downs a) * w a := by
  rw [total_mulVec]
  have e : ∀ j : Fin n, (spinHalf .z (digit a j) (digit a j) * w a + spinHalf .z (digit a j) (digit a j + 1) * w (turned j a)) =
      (1 / 2) * w a - if digit a j = 1 then w a else 0 := by
    intro j
    generalize digit a j = q
    fin_cases q
    · simp [spinHalf]
    · simp [spinHalf]; ring
  rw [Finset.sum_congr rfl fun j _ => e j, Finset.sum_sub_distrib, ← Finset.sum_filter, Finset.sum_const, Finset.sum_const,
    Finset.card_univ, Fintype.card_fin, nsmul_eq_mul, nsmul_eq_mul]
  change _ - (downs a : ℂ) * _ = _
  ring

theorem downs_turned {j : Fin n} {a : Fin (2 ^ n)} (h : digit a j = 0) : downs (turned j a) = downs a + 1 := by
  unfold downs
  have e : (Finset.univ.filter fun i : Fin n => digit (turned j a) i = 1) =
      insert j (Finset.univ.filter fun i : Fin n => digit a i = 1) := by
    ext i
    simp only [Finset.mem_filter, Finset.mem_univ, true_and, Finset.mem_insert]
    by_cases hi : i = j
    · subst hi
      rw [turned_self, h]
      simp
    · rw [digit_turned_ne hi]
      simp [hi]
  rw [e, Finset.card_insert_of_notMem]
  simp [h]

theorem turned_turned (j : Fin n) (a : Fin (2 ^ n)) : turned j (turned j a) = a :=
  config_ext fun k => by
    by_cases hk : k = j
    · rw [hk, turned_self, turned_self]
      generalize digit a j = q
      revert q
      decide
    · rw [digit_turned_ne hk, digit_turned_ne hk]

theorem downs_turned' {j : Fin n} {a : Fin (2 ^ n)} (h : digit a j = 1) : downs (turned j a) + 1 = downs a := by
  have := downs_turned (j := j) (a := turned j a) (by rw [turned_self, h]; rfl)
  rw [turned_turned] at this
  exact this.symm

/-- Nonzero amplitudes only with `k` spins down. -/
def InSector (k : ℕ) (w : Fin (2 ^ n) → ℂ) : Prop := ∀ a, w a ≠ 0 → downs a = k

theorem InSector.lower {k : ℕ} {w : Fin (2 ^ n) → ℂ} (h : InSector k w) : InSector (k + 1) (totalSpinOp n .m *ᵥ w) := by
  intro a ha
  rw [lower_apply] at ha
  obtain ⟨j, -, hj⟩ := Finset.exists_ne_zero_of_sum_ne_zero ha
  by_cases hd : digit a j = 1
  · rw [if_pos hd] at hj
    rw [← downs_turned' hd, h _ hj]
  · rw [if_neg hd] at hj
    exact absurd rfl hj

theorem InSector.raise {k : ℕ} {w : Fin (2 ^ n) → ℂ} (h : InSector (k + 1) w) : InSector k (totalSpinOp n .p *ᵥ w) := by
  intro a ha
  rw [raise_apply] at ha
  obtain ⟨j, -, hj⟩ := Finset.exists_ne_zero_of_sum_ne_zero ha
  by_cases hd : digit a j = 0
  · rw [if_pos hd] at hj
    have := h _ hj
    rw [downs_turned hd] at this
    omega
  · rw [if_neg hd] at hj
    exact absurd rfl hj

theorem total_adj (o : SpinOtype) : (totalSpinOp n o)ᴴ = ∑ i ∈ Finset.range n, siteOp n i (spinHalf o)ᴴ := by
  unfold totalSpinOp
  rw [Matrix.conjTranspose_sum]
  exact Finset.sum_congr rfl fun i _ => siteOp_conjTranspose n i _

theorem raise_adj : (totalSpinOp n .p)ᴴ = totalSpinOp n .m := by
  rw [total_adj, ← Verif.spinHalf_adj .p]; rfl

theorem lower_adj : (totalSpinOp n .m)ᴴ = totalSpinOp n .p := by
  rw [total_adj, ← Verif.spinHalf_adj .m]; rfl

theorem ladder_commutator : totalSpinOp n .p * totalSpinOp n .m = totalSpinOp n .m * totalSpinOp n .p + (2 : ℂ) • totalSpinOp n .z := by
  unfold totalSpinOp
  rw [Finset.sum_mul_sum, Finset.sum_mul_sum, Finset.sum_comm (s := Finset.range n) (t := Finset.range n)
    (f := fun i j => siteOp n i (spinHalf .m) * siteOp n j (spinHalf .p)), Finset.smul_sum, ← Finset.sum_add_distrib]
  refine Finset.sum_congr rfl fun i hi => ?_
  rw [Finset.mem_range] at hi
  have e : ∀ j ∈ Finset.range n, siteOp n i (spinHalf .p) * siteOp n j (spinHalf .m) =
      siteOp n j (spinHalf .m) * siteOp n i (spinHalf .p) + if i = j then (2 : ℂ) • siteOp n i (spinHalf .z) else 0 := by
    intro j hj
    rw [Finset.mem_range] at hj
    by_cases hij : i = j
    · subst hij
      rw [if_pos rfl, siteOp_mul _ _ hi, siteOp_mul _ _ hi, ← siteOp_smul, ← siteOp_add]
      congr 1
      ext r c
      fin_cases r <;> fin_cases c <;> simp [spinHalf]
      norm_num
    · rw [if_neg hij, add_zero]
      exact (siteOp_comm n i j hi hj hij _ _).eq
  rw [Finset.sum_congr rfl e, Finset.sum_add_distrib, Finset.sum_ite_eq, if_pos (Finset.mem_range.2 hi)]

theorem star_mulVec_dot {N : ℕ} (M : Matrix (Fin N) (Fin N) ℂ) (v w : Fin N → ℂ) :
    star (M *ᵥ v) ⬝ᵥ w = star v ⬝ᵥ Mᴴ *ᵥ w := by
  rw [Matrix.star_mulVec, Matrix.dotProduct_mulVec]

/-- Lowering and raising within a sector. -/
theorem ladder_norm {k : ℕ} {w : Fin (2 ^ n) → ℂ} (h : InSector k w) :
    norm2 (totalSpinOp n .m *ᵥ w) = norm2 (totalSpinOp n .p *ᵥ w) + ((n : ℝ) - 2 * k) * norm2 w := by
  have hz : totalSpinOp n .z *ᵥ w = ((n : ℂ) / 2 - k) • w := by
    funext a
    rw [sz_apply, Pi.smul_apply, smul_eq_mul]
    by_cases ha : w a = 0
    · rw [ha, mul_zero, mul_zero]
    · rw [h a ha]
  have e : ((norm2 (totalSpinOp n .m *ᵥ w) : ℝ) : ℂ) = (norm2 (totalSpinOp n .p *ᵥ w) : ℝ) +
      ((n : ℝ) - 2 * k : ℝ) * (norm2 w : ℝ) := by
    rw [← star_dot, ← star_dot, ← star_dot, star_mulVec_dot, star_mulVec_dot, lower_adj, raise_adj, Matrix.mulVec_mulVec,
      Matrix.mulVec_mulVec, ladder_commutator, Matrix.add_mulVec, Matrix.smul_mulVec, hz, dotProduct_add, dotProduct_smul,
      dotProduct_smul, smul_eq_mul, smul_eq_mul]
    push_cast
    ring
  exact_mod_cast e

theorem norm2_eq_zero {N : ℕ} {v : Fin N → ℂ} (h : norm2 v = 0) : v = 0 := by
  by_contra h0
  exact (norm2_pos h0).ne' h

theorem norm2_nonneg' {N : ℕ} (v : Fin N → ℂ) : 0 ≤ norm2 v := Finset.sum_nonneg fun _ _ => Complex.normSq_nonneg _

theorem lower_ne {k : ℕ} {w : Fin (2 ^ n) → ℂ} (h : InSector k w) (hk : 2 * k < n) (hw : w ≠ 0) :
    totalSpinOp n .m *ᵥ w ≠ 0 := by
  intro h0
  have := ladder_norm h
  rw [h0] at this
  have h1 := norm2_nonneg' (totalSpinOp n .p *ᵥ w)
  have h2 := norm2_pos hw
  have h3 : (0 : ℝ) < n - 2 * k := by
    have : (2 * k : ℝ) < n := by exact_mod_cast hk
    linarith
  have h4 : norm2 (0 : Fin (2 ^ n) → ℂ) = 0 := by simp [norm2]
  rw [h4] at this
  have := mul_pos h3 h2
  linarith

theorem raise_ne {k : ℕ} {w : Fin (2 ^ n) → ℂ} (h : InSector k w) (hk : n < 2 * k) (hw : w ≠ 0) :
    totalSpinOp n .p *ᵥ w ≠ 0 := by
  intro h0
  have := ladder_norm h
  rw [h0] at this
  have h1 := norm2_nonneg' (totalSpinOp n .m *ᵥ w)
  have h2 := norm2_pos hw
  have h3 : (0 : ℝ) < 2 * k - n := by
    have : (n : ℝ) < 2 * k := by exact_mod_cast hk
    linarith
  have h4 : norm2 (0 : Fin (2 ^ n) → ℂ) = 0 := by simp [norm2]
  rw [h4] at this
  have := mul_pos h3 h2
  linarith

/-! ### The singlet of pairs -/

variable {A : Fin n → Prop} [DecidablePred A] {p : Fin n → Fin n}

open Classical in
/-- Every spin forms a singlet with its partner. -/
noncomputable def paired (A : Fin n → Prop) [DecidablePred A] (p : Fin n → Fin n) : Fin (2 ^ n) → ℂ :=
  fun a => if ∀ i, digit a (p i) ≠ digit a i then (sgn A a : ℂ) else 0

theorem paired_turned (hp : ∀ i, p (p i) = i) (hA : ∀ i, A (p i) ↔ ¬ A i) {a : Fin (2 ^ n)} {j : Fin n} (hj : digit a j = 0)
    (hpj : digit a (p j) = 0) : paired A p (turned (p j) a) = -paired A p (turned j a) := by
  have hne : p j ≠ j := fun h => by
    have := hA j
    rw [h] at this
    tauto
  have hcond : ∀ j : Fin n, digit a j = 0 → digit a (p j) = 0 → p j ≠ j →
      ((∀ i, digit (turned j a) (p i) ≠ digit (turned j a) i) ↔ ∀ i, i ≠ j → i ≠ p j → digit a (p i) ≠ digit a i) := by
    intro j hj hpj hne
    constructor
    · intro h i h1 h2
      have := h i
      rwa [digit_turned_ne h1, digit_turned_ne fun e => h2 (by rw [← e, hp])] at this
    · intro h i
      by_cases h1 : i = j
      · rw [h1, turned_self, digit_turned_ne hne, hpj, hj]
        decide
      · by_cases h2 : i = p j
        · rw [h2, hp, turned_self, digit_turned_ne hne, hpj, hj]
          decide
        · rw [digit_turned_ne h1, digit_turned_ne fun e => h2 (by rw [← e, hp])]
          exact h i h1 h2
  have hs : ∀ j : Fin n, sgn A (turned j a) = if A j then -sgn A a else sgn A a := fun j =>
    sgn_change (digit_turned_self j a) fun k hk _ => digit_turned_ne hk a
  unfold paired
  have c1 := hcond j hj hpj hne
  have c2 := hcond (p j) hpj (by rw [hp]; exact hj) (by rw [hp]; exact hne.symm)
  rw [hp] at c2
  have c : (∀ i, digit (turned (p j) a) (p i) ≠ digit (turned (p j) a) i) ↔
      ∀ i, digit (turned j a) (p i) ≠ digit (turned j a) i := by
    rw [c1, c2]
    exact forall_congr' fun i => ⟨fun h x y => h y x, fun h x y => h y x⟩
  by_cases hc : ∀ i, digit (turned j a) (p i) ≠ digit (turned j a) i
  · rw [if_pos (c.2 hc), if_pos hc, hs, hs]
    by_cases hAj : A j
    · rw [if_pos hAj, if_neg (by rw [hA]; exact not_not.2 hAj)]
      push_cast
      ring
    · rw [if_neg hAj, if_pos ((hA j).2 hAj)]
      push_cast
      rfl
  · rw [if_neg (fun h => hc (c.1 h)), if_neg hc, neg_zero]

theorem raise_paired (hp : ∀ i, p (p i) = i) (hA : ∀ i, A (p i) ↔ ¬ A i) : totalSpinOp n .p *ᵥ paired A p = 0 := by
  funext a
  rw [raise_apply, Pi.zero_apply]
  have hne : ∀ j, p j ≠ j := fun j h => by
    have := hA j
    rw [h] at this
    tauto
  -- a single flipped spin of an antiparallel pair gives nothing
  have hz : ∀ j : Fin n, digit a j = 0 → digit a (p j) = 1 → paired A p (turned j a) = 0 := by
    intro j hj hpj
    unfold paired
    rw [if_neg]
    intro h
    refine h j ?_
    rw [turned_self, digit_turned_ne (hne j), hj, hpj]
    rfl
  refine Finset.sum_involution (fun j _ => p j) (fun j _ => ?_) (fun j _ _ => hne j) (fun j _ => Finset.mem_univ _)
    fun j _ => hp j
  have two : ∀ q : Fin 2, q = 0 ∨ q = 1 := by decide
  rcases two (digit a j) with h | h <;> rcases two (digit a (p j)) with h' | h'
  · rw [if_pos h, if_pos h', paired_turned hp hA h h', add_neg_cancel]
  · rw [if_pos h, hz j h h', if_neg (by rw [h']; decide), add_zero]
  · rw [if_neg (by rw [h]; decide), if_pos h', hz (p j) h' (by rw [hp]; exact h), add_zero]
  · rw [if_neg (by rw [h]; decide), if_neg (by rw [h']; decide), add_zero]

end Verif.LDB
