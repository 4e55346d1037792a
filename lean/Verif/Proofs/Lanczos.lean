import Verif.Model.Lanczos
import Mathlib.LinearAlgebra.Dimension.Constructions
import Mathlib.LinearAlgebra.FiniteDimensional.Basic
import Mathlib.Tactic.LinearCombination
/-!
# Lemmas for the Lanczos recursion

`seq M k0 n` is the n-th ket of the recursion run forever (a vanishing residual is followed by zero
vectors); the loop of the code produces an initial segment of it.
-/

namespace Verif.Lanczos

open Matrix

variable {N : ℕ}

theorem vdot_add_right (a b c : Vec N) : vdot a (b + c) = vdot a b + vdot a c := by
  simp [vdot, mul_add, Finset.sum_add_distrib]

theorem vdot_sub_right (a b c : Vec N) : vdot a (b - c) = vdot a b - vdot a c := by
  simp [vdot, mul_sub, Finset.sum_sub_distrib]

theorem vdot_smul_right (a b : Vec N) (z : ℂ) : vdot a (z • b) = z * vdot a b := by
  simp only [vdot, Pi.smul_apply, smul_eq_mul, Finset.mul_sum]
  exact Finset.sum_congr rfl fun i _ => by ring

theorem vdot_sum_right {ι : Type} (s : Finset ι) (a : Vec N) (f : ι → Vec N) :
    vdot a (∑ j ∈ s, f j) = ∑ j ∈ s, vdot a (f j) := by
  simp only [vdot, Finset.sum_apply, Finset.mul_sum]
  exact Finset.sum_comm

theorem vdot_zero_right (a : Vec N) : vdot a 0 = 0 := by simp [vdot]

theorem vdot_zero_left (a : Vec N) : vdot 0 a = 0 := by simp [vdot]

theorem vdot_conj (a b : Vec N) : star (vdot a b) = vdot b a := by
  simp only [vdot, star_sum, star_mul', star_star]
  exact Finset.sum_congr rfl fun i _ => by ring

theorem vdot_self (a : Vec N) : vdot a a = ((norm2 a ^ 2 : ℝ) : ℂ) := by
  unfold norm2
  rw [Real.sq_sqrt (Finset.sum_nonneg fun i _ => Complex.normSq_nonneg _)]
  simp only [vdot]
  push_cast
  refine Finset.sum_congr rfl fun i _ => ?_
  rw [Complex.normSq_eq_conj_mul_self]
  rfl

theorem norm2_nonneg (a : Vec N) : 0 ≤ norm2 a := Real.sqrt_nonneg _

theorem norm2_eq_zero {a : Vec N} (h : norm2 a = 0) : a = 0 := by
  unfold norm2 at h
  rw [Real.sqrt_eq_zero (Finset.sum_nonneg fun i _ => Complex.normSq_nonneg _),
    Finset.sum_eq_zero_iff_of_nonneg fun i _ => Complex.normSq_nonneg _] at h
  funext i
  exact Complex.normSq_eq_zero.mp (h i (Finset.mem_univ i))

theorem norm2_zero : norm2 (0 : Vec N) = 0 := by simp [norm2]

/-- normalisation of a vector (`x / norm(x)`) -/
noncomputable def unit (a : Vec N) : Vec N := fun i => a i / (norm2 a : ℂ)

theorem unit_eq (a : Vec N) : unit a = ((norm2 a : ℂ)⁻¹) • a := by
  funext i
  simp [unit, div_eq_inv_mul]

theorem norm_smul_unit (a : Vec N) : (norm2 a : ℂ) • unit a = a := by
  by_cases h : norm2 a = 0
  · rw [norm2_eq_zero h]
    funext i
    simp [unit]
  · rw [unit_eq, smul_smul, mul_inv_cancel₀ (by exact_mod_cast h), one_smul]

theorem vdot_unit_self (a : Vec N) (h : norm2 a ≠ 0) : vdot (unit a) (unit a) = 1 := by
  have hs : vdot (unit a) (unit a) = (norm2 a : ℂ)⁻¹ * ((norm2 a : ℂ)⁻¹ * vdot a a) := by
    have h1 : vdot (unit a) (unit a) = (norm2 a : ℂ)⁻¹ * vdot (unit a) a := by
      conv_lhs => rw [unit_eq a]
      rw [vdot_smul_right, ← unit_eq]
    rw [h1]
    congr 1
    rw [← vdot_conj, unit_eq, vdot_smul_right, star_mul', vdot_conj]
    congr 1
    rw [star_inv₀]
    simp
  rw [hs, vdot_self]
  have : (norm2 a : ℂ) ≠ 0 := by exact_mod_cast h
  push_cast
  field_simp

theorem vdot_unit_right (b a : Vec N) : vdot b (unit a) = (norm2 a : ℂ)⁻¹ * vdot b a := by
  rw [unit_eq, vdot_smul_right]

theorem unit_zero_of {a : Vec N} (h : norm2 a = 0) : unit a = 0 := by
  rw [norm2_eq_zero h]; funext i; simp [unit]

/-- Hermitian matrices move across the product. -/
theorem vdot_hermitian {M : Matrix (Fin N) (Fin N) ℂ} (hM : M.IsHermitian) (a b : Vec N) :
    vdot a (M.mulVec b) = vdot (M.mulVec a) b := by
  simp only [vdot, Matrix.mulVec, dotProduct, star_sum, star_mul', Finset.mul_sum, Finset.sum_mul]
  rw [Finset.sum_comm]
  refine Finset.sum_congr rfl fun i _ => Finset.sum_congr rfl fun j _ => ?_
  have : M j i = star (M i j) := (hM.apply j i).symm
  rw [this]
  ring

/-- (ket, previous ket) of the endless recursion. -/
noncomputable def pairSeq (M : Matrix (Fin N) (Fin N) ℂ) (k0 : Vec N) : ℕ → Vec N × Vec N
  | 0 => (k0, 0)
  | n + 1 => (unit (residual M (pairSeq M k0 n).1 (pairSeq M k0 n).2), (pairSeq M k0 n).1)

/-- the kets -/
noncomputable def seq (M : Matrix (Fin N) (Fin N) ℂ) (k0 : Vec N) (n : ℕ) : Vec N :=
  (pairSeq M k0 n).1

/-- the residuals -/
noncomputable def res (M : Matrix (Fin N) (Fin N) ℂ) (k0 : Vec N) (n : ℕ) : Vec N :=
  residual M (pairSeq M k0 n).1 (pairSeq M k0 n).2

variable {M : Matrix (Fin N) (Fin N) ℂ} {k0 : Vec N}

theorem seq_succ (n : ℕ) : seq M k0 (n + 1) = unit (res M k0 n) := rfl

theorem pair_old_succ (n : ℕ) : (pairSeq M k0 (n + 1)).2 = seq M k0 n := rfl

/-- the three-term recursion, for all n -/
theorem three_term (n : ℕ) : M.mulVec (seq M k0 n) =
    vdot (seq M k0 n) (M.mulVec (seq M k0 n)) • seq M k0 n +
    vdot (pairSeq M k0 n).2 (M.mulVec (seq M k0 n)) • (pairSeq M k0 n).2 +
    (norm2 (res M k0 n) : ℂ) • seq M k0 (n + 1) := by
  rw [seq_succ, norm_smul_unit]
  unfold res residual seq
  abel

theorem seq_zero_or_unit (h0 : vdot k0 k0 = 1) (n : ℕ) :
    vdot (seq M k0 n) (seq M k0 n) = 1 ∨ seq M k0 n = 0 := by
  cases n with
  | zero => exact Or.inl h0
  | succ n =>
    rw [seq_succ]
    by_cases h : norm2 (res M k0 n) = 0
    · exact Or.inr (unit_zero_of h)
    · exact Or.inl (vdot_unit_self _ h)

/-- orthogonality of the endless recursion -/
theorem seq_orthogonal (hM : M.IsHermitian) (h0 : vdot k0 k0 = 1) (n : ℕ) :
    ∀ i, i < n → vdot (seq M k0 i) (seq M k0 n) = 0 := by
  induction n using Nat.strong_induction_on with
  | _ n ih =>
  cases n with
  | zero => intro i hi; omega
  | succ n =>
    intro i hi
    have sym : ∀ a b, a < n + 1 → b < n + 1 → a ≠ b → vdot (seq M k0 a) (seq M k0 b) = 0 := by
      intro a b ha hb hab
      rcases lt_or_gt_of_ne hab with h | h
      · exact ih b hb a h
      · rw [← vdot_conj, ih a ha b h, star_zero]
    rw [seq_succ, vdot_unit_right]
    suffices hr : vdot (seq M k0 i) (res M k0 n) = 0 by rw [hr, mul_zero]
    have hexp : vdot (seq M k0 i) (res M k0 n) = vdot (seq M k0 i) (M.mulVec (seq M k0 n)) -
        vdot (seq M k0 n) (M.mulVec (seq M k0 n)) * vdot (seq M k0 i) (seq M k0 n) -
        vdot (pairSeq M k0 n).2 (M.mulVec (seq M k0 n)) *
          vdot (seq M k0 i) (pairSeq M k0 n).2 := by
      simp only [res, residual, vdot_sub_right, vdot_smul_right]
      rfl
    rw [hexp]
    rcases Nat.lt_succ_iff_lt_or_eq.mp hi with hin | rfl
    · -- i < n
      rw [ih n (by omega) i hin, mul_zero, sub_zero]
      obtain ⟨m, rfl⟩ : ∃ m, n = m + 1 := ⟨n - 1, by omega⟩
      rw [pair_old_succ]
      rcases Nat.lt_succ_iff_lt_or_eq.mp hin with him | rfl
      · -- i < m : M k_i only involves k_{i-1}, k_i, k_{i+1}
        rw [sym i m (by omega) (by omega) (by omega), mul_zero, sub_zero, vdot_hermitian hM,
          ← vdot_conj, three_term i, vdot_add_right, vdot_add_right, vdot_smul_right,
          vdot_smul_right, vdot_smul_right, sym (m + 1) i (by omega) (by omega) (by omega),
          sym (m + 1) (i + 1) (by omega) (by omega) (by omega)]
        have : vdot (seq M k0 (m + 1)) (pairSeq M k0 i).2 = 0 := by
          cases i with
          | zero => exact vdot_zero_right _
          | succ i => rw [pair_old_succ]; exact sym _ _ (by omega) (by omega) (by omega)
        rw [this]
        simp
      · -- i = m
        rcases seq_zero_or_unit (M := M) h0 i with h | h
        · rw [h]; ring
        · rw [h, vdot_zero_left, vdot_zero_left]; ring
    · -- i = n
      have hold : vdot (seq M k0 i) (pairSeq M k0 i).2 = 0 := by
        cases i with
        | zero => exact vdot_zero_right _
        | succ i => rw [pair_old_succ]; exact sym _ _ (by omega) (by omega) (by omega)
      rw [hold, mul_zero, sub_zero]
      rcases seq_zero_or_unit (M := M) h0 i with h | h
      · rw [h]; ring
      · rw [h, vdot_zero_left, vdot_zero_left]; ring

theorem seq_orthogonal' (hM : M.IsHermitian) (h0 : vdot k0 k0 = 1) {i j : ℕ} (h : i ≠ j) :
    vdot (seq M k0 i) (seq M k0 j) = 0 := by
  rcases lt_or_gt_of_ne h with h | h
  · exact seq_orthogonal hM h0 j i h
  · rw [← vdot_conj, seq_orthogonal hM h0 i j h, star_zero]

/-- matrix elements in the kets -/
theorem vdot_M_self_real (hM : M.IsHermitian) (a : Vec N) :
    ((vdot a (M.mulVec a)).re : ℂ) = vdot a (M.mulVec a) := by
  have : star (vdot a (M.mulVec a)) = vdot a (M.mulVec a) := by
    rw [vdot_conj, ← vdot_hermitian hM]
  exact Complex.conj_eq_iff_re.mp this

theorem vdot_M_far (hM : M.IsHermitian) (h0 : vdot k0 k0 = 1) {i j : ℕ} (h : i + 1 < j) :
    vdot (seq M k0 i) (M.mulVec (seq M k0 j)) = 0 := by
  rw [vdot_hermitian hM, ← vdot_conj, three_term i, vdot_add_right, vdot_add_right,
    vdot_smul_right, vdot_smul_right, vdot_smul_right,
    seq_orthogonal' hM h0 (show j ≠ i by omega), seq_orthogonal' hM h0 (show j ≠ i + 1 by omega)]
  have : vdot (seq M k0 j) (pairSeq M k0 i).2 = 0 := by
    cases i with
    | zero => exact vdot_zero_right _
    | succ i => rw [pair_old_succ]; exact seq_orthogonal' hM h0 (by omega)
  rw [this]
  simp

theorem vdot_M_next (hM : M.IsHermitian) (h0 : vdot k0 k0 = 1) (i : ℕ) :
    vdot (seq M k0 i) (M.mulVec (seq M k0 (i + 1))) =
      (norm2 (res M k0 i) : ℂ) * vdot (seq M k0 (i + 1)) (seq M k0 (i + 1)) := by
  rw [vdot_hermitian hM, ← vdot_conj, three_term i, vdot_add_right, vdot_add_right,
    vdot_smul_right, vdot_smul_right, vdot_smul_right,
    seq_orthogonal' hM h0 (show i + 1 ≠ i by omega)]
  have : vdot (seq M k0 (i + 1)) (pairSeq M k0 i).2 = 0 := by
    cases i with
    | zero => exact vdot_zero_right _
    | succ i => rw [pair_old_succ]; exact seq_orthogonal' hM h0 (by omega)
  rw [this, mul_zero, mul_zero, zero_add, zero_add, star_mul', vdot_conj]
  simp

theorem vdot_M_next_real (hM : M.IsHermitian) (h0 : vdot k0 k0 = 1) (i : ℕ) :
    ((vdot (seq M k0 i) (M.mulVec (seq M k0 (i + 1)))).re : ℂ) =
      vdot (seq M k0 i) (M.mulVec (seq M k0 (i + 1))) := by
  rw [vdot_M_next hM h0, vdot_self]
  rw [← Complex.ofReal_mul, Complex.ofReal_re]

/-- the step recorded at iteration n -/
noncomputable def stepAt (M : Matrix (Fin N) (Fin N) ℂ) (k0 : Vec N) (n : ℕ) : Step N :=
  ⟨seq M k0 n, vdot (seq M k0 n) (M.mulVec (seq M k0 n)),
    vdot (pairSeq M k0 n).2 (M.mulVec (seq M k0 n))⟩

/-- The loop yields an initial segment of the recursion. -/
theorem krylovSteps_spec (t : ℝ) (n : ℕ) : ∀ i, ∃ d ≤ n,
    krylovSteps t M n (pairSeq M k0 i).1 (pairSeq M k0 i).2 =
      (List.range' i d).map (stepAt M k0) ∧
    (0 < n → 0 < d) ∧ (∀ m, i ≤ m → m + 1 < i + d → t < norm2 (res M k0 m)) ∧
    (d < n → 0 < d ∧ norm2 (res M k0 (i + d - 1)) ≤ t) := by
  induction n with
  | zero => intro i; exact ⟨0, le_refl _, rfl, by simp, by intro m h1 h2; omega, by simp⟩
  | succ n ih =>
    intro i
    by_cases h : t < norm2 (res M k0 i)
    · obtain ⟨d, hd, e, h1, h2, h3⟩ := ih (i + 1)
      refine ⟨d + 1, by omega, ?_, by omega, ?_, ?_⟩
      · simp only [krylovSteps]
        have h' : t < norm2 (residual M (pairSeq M k0 i).1 (pairSeq M k0 i).2) := h
        rw [if_pos h']
        rw [List.range'_succ, List.map_cons]
        have := e
        simp only [pairSeq] at this
        congr 1
      · intro m hm1 hm2
        rcases Nat.eq_or_lt_of_le hm1 with rfl | hm
        · exact h
        · exact h2 m hm (by omega)
      · intro hlt
        refine ⟨by omega, ?_⟩
        obtain ⟨a, b⟩ := h3 (by omega)
        have : i + (d + 1) - 1 = i + 1 + d - 1 := by omega
        rw [this]
        exact b
    · refine ⟨1, by omega, ?_, by omega, ?_, ?_⟩
      · simp only [krylovSteps]
        have h' : ¬ t < norm2 (residual M (pairSeq M k0 i).1 (pairSeq M k0 i).2) := h
        rw [if_neg h']
        rfl
      · intro m h1 h2; omega
      · intro _
        refine ⟨by omega, ?_⟩
        have : i + 1 - 1 = i := by omega
        rw [this]
        exact not_lt.mp h

/-- norm one up to the end of the segment -/
theorem seq_unit (h0 : vdot k0 k0 = 1) {t : ℝ} (ht : 0 ≤ t) {d : ℕ}
    (h : ∀ m, m + 1 < d → t < norm2 (res M k0 m)) {i : ℕ} (hi : i < d) :
    vdot (seq M k0 i) (seq M k0 i) = 1 := by
  cases i with
  | zero => exact h0
  | succ i =>
    rw [seq_succ]
    exact vdot_unit_self _ (by have := h i hi; linarith)

/-- an orthonormal family has at most N members -/
theorem card_le_of_orthonormal {d : ℕ} (V : Fin d → Vec N)
    (hV : ∀ i j, vdot (V i) (V j) = if i = j then 1 else 0) : d ≤ N := by
  have hli : LinearIndependent ℂ V := by
    rw [Fintype.linearIndependent_iff]
    intro g hg i
    have h1 : vdot (V i) (∑ j, g j • V j) = g i := by
      rw [vdot_sum_right]
      simp [vdot_smul_right, hV]
    rw [hg, vdot_zero_right] at h1
    exact h1.symm
  have := hli.fintype_card_le_finrank
  simpa using this

/-- What a returning call of `krylov` gives, in terms of the recursion. -/
theorem krylov_shape {κ : Type} {t : ℝ} {vectors : κ → Vec N} {v0 : Vec N} {K : ℤ} {rep : Rep κ}
    (h : krylov t M vectors v0 K = .ok rep) :
    t < norm2 v0 ∧ rep.dim ≤ K.toNat ∧ (0 < K.toNat → 0 < rep.dim) ∧
    (∀ m, m + 1 < rep.dim → t < norm2 (res M (unit v0) m)) ∧
    (rep.dim < K.toNat → norm2 (res M (unit v0) (rep.dim - 1)) ≤ t) ∧
    (∀ i j, rep.mat i j =
      (if i = j then (stepAt M (unit v0) i).A.re else 0) +
      (if (i : ℕ) = j + 1 then (stepAt M (unit v0) i).B.re else 0) +
      (if (j : ℕ) = i + 1 then (stepAt M (unit v0) j).B.re else 0)) ∧
    (∀ key i, rep.vec key i = vdot (seq M (unit v0) i) (vectors key)) := by
  unfold krylov at h
  by_cases ht : t < norm2 v0
  swap
  · rw [if_neg ht] at h; exact absurd h (by simp [raise])
  rw [if_pos ht] at h
  obtain ⟨d, hd, e, h1, h2, h3⟩ := krylovSteps_spec (M := M) (k0 := unit v0) t K.toNat 0
  have e' : krylovSteps t M K.toNat (fun i => v0 i / (norm2 v0 : ℂ)) 0 =
      (List.range' 0 d).map (stepAt M (unit v0)) := e
  simp only [Except.ok.injEq] at h
  subst h
  rw [e']
  have hlen : ((List.range' 0 d).map (stepAt M (unit v0))).length = d := by simp
  have hget : ∀ i : Fin ((List.range' 0 d).map (stepAt M (unit v0))).length,
      ((List.range' 0 d).map (stepAt M (unit v0))).get i = stepAt M (unit v0) i := by
    intro i
    simp
  refine ⟨ht, ?_, ?_, ?_, ?_, ?_, ?_⟩
  · simpa using hd
  · simpa using h1
  · intro m hm
    dsimp only at hm
    rw [hlen] at hm
    exact h2 m (Nat.zero_le _) (by omega)
  · intro hlt
    dsimp only at hlt ⊢
    rw [hlen] at hlt ⊢
    have := (h3 hlt).2
    simpa using this
  · intro i j
    simp only [tridiag, hget]
  · intro key i
    simp only [hget]
    rfl

/-- the returned matrix in terms of matrix elements of `M` -/
theorem stepAt_mat (hM : M.IsHermitian) (h0 : vdot k0 k0 = 1) (i j : ℕ) :
    (((if i = j then (stepAt M k0 i).A.re else 0) +
      (if i = j + 1 then (stepAt M k0 i).B.re else 0) +
      (if j = i + 1 then (stepAt M k0 j).B.re else 0) : ℝ) : ℂ) =
    vdot (seq M k0 i) (M.mulVec (seq M k0 j)) := by
  have hsym : ∀ a b, vdot (seq M k0 a) (M.mulVec (seq M k0 b)) =
      star (vdot (seq M k0 b) (M.mulVec (seq M k0 a))) := by
    intro a b
    rw [vdot_conj, ← vdot_hermitian hM]
  by_cases hij : i = j
  · subst hij
    simp only [if_true, show ¬ i = i + 1 by omega, if_false, add_zero]
    exact vdot_M_self_real hM _
  rw [if_neg hij]
  by_cases h1 : i = j + 1
  · subst h1
    rw [if_pos rfl, if_neg (by omega), zero_add, add_zero, hsym, ← vdot_M_next_real hM h0 j]
    simp only [stepAt, pair_old_succ]
    simp
  rw [if_neg h1]
  by_cases h2 : j = i + 1
  · subst h2
    rw [if_pos rfl, zero_add, zero_add, ← vdot_M_next_real hM h0 i]
    simp only [stepAt, pair_old_succ]
  rw [if_neg h2]
  rcases lt_or_gt_of_ne hij with h | h
  · rw [vdot_M_far hM h0 (show i + 1 < j by omega)]; simp
  · rw [hsym, vdot_M_far hM h0 (show j + 1 < i by omega)]; simp

/-- the kets lie in the Krylov spaces -/
theorem seq_mem_span (v0 : Vec N) (n : ℕ) : seq M (unit v0) n ∈
    Submodule.span ℂ {w | ∃ k ≤ n, w = (M ^ k).mulVec v0} := by
  have mono : ∀ a b, a ≤ b → Submodule.span ℂ {w | ∃ k ≤ a, w = (M ^ k).mulVec v0} ≤
      Submodule.span ℂ {w | ∃ k ≤ b, w = (M ^ k).mulVec v0} := by
    intro a b hab
    apply Submodule.span_mono
    rintro w ⟨k, hk, rfl⟩
    exact ⟨k, by omega, rfl⟩
  have shift : ∀ a w, w ∈ Submodule.span ℂ {w | ∃ k ≤ a, w = (M ^ k).mulVec v0} →
      M.mulVec w ∈ Submodule.span ℂ {w | ∃ k ≤ a + 1, w = (M ^ k).mulVec v0} := by
    intro a w hw
    induction hw using Submodule.span_induction with
    | mem x hx =>
      obtain ⟨k, hk, rfl⟩ := hx
      apply Submodule.subset_span
      exact ⟨k + 1, by omega, by rw [Matrix.mulVec_mulVec, ← pow_succ']⟩
    | zero => simp
    | add x y _ _ hx hy => rw [Matrix.mulVec_add]; exact Submodule.add_mem _ hx hy
    | smul c x _ hx => rw [Matrix.mulVec_smul]; exact Submodule.smul_mem _ _ hx
  induction n using Nat.strong_induction_on with
  | _ n ih =>
  cases n with
  | zero =>
    change unit v0 ∈ _
    rw [unit_eq]
    apply Submodule.smul_mem
    apply Submodule.subset_span
    exact ⟨0, le_refl _, by simp⟩
  | succ n =>
    rw [seq_succ, unit_eq]
    apply Submodule.smul_mem
    unfold res residual
    apply Submodule.sub_mem
    · apply Submodule.sub_mem
      · exact shift n _ (ih n (by omega))
      · exact Submodule.smul_mem _ _ (mono n _ (by omega) (ih n (by omega)))
    · apply Submodule.smul_mem
      cases n with
      | zero => exact Submodule.zero_mem _
      | succ n => exact mono n _ (by omega) (ih n (by omega))

end Verif.Lanczos
