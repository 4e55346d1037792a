import Verif.Proofs.Lanczos
import Verif.Spec.Lanczos
import Mathlib.LinearAlgebra.Matrix.Notation
import Mathlib.Tactic.FinCases
/-!
# C56, C57: the Lanczos projection
-/

namespace Verif.Lanczos

open Matrix

variable {N : ℕ} {κ : Type} {M : Matrix (Fin N) (Fin N) ℂ} {t : ℝ} {vectors : κ → Vec N}
  {v0 : Vec N} {K : ℤ} {rep : Rep κ}

/-- C56.  For a Hermitian matrix the returned data are the representation of the matrix and of the
vectors in an orthonormal basis of Krylov vectors whose first member is the normalised start
vector; the matrix is real symmetric tridiagonal (with off-diagonal elements above the
threshold).  The last line is the Lanczos relation: `M V = V T` except in the last column, where the
difference is orthogonal to all basis vectors, and no longer than the threshold when the iteration
stopped before `krylov_space_dim`. -/
theorem C56_lanczos_representation (hM : M.IsHermitian) (ht : 0 ≤ t)
    (h : krylov t M vectors v0 K = .ok rep) :
    ∃ V : Matrix (Fin N) (Fin rep.dim) ℂ,
      IsKrylovBasis M v0 V ∧
      rep.mat.map (fun x => (x : ℂ)) = Vᴴ * M * V ∧
      (∀ key, rep.vec key = Vᴴ *ᵥ vectors key) ∧
      IsSymTridiagonal rep.mat ∧
      (∀ i j : Fin rep.dim, (j : ℕ) = i + 1 → t < rep.mat i j) ∧
      (∀ j : Fin rep.dim, (j : ℕ) = 0 → ∀ a, V a j = v0 a / (norm2 v0 : ℂ)) ∧
      ∃ R : Matrix (Fin N) (Fin rep.dim) ℂ,
        M * V = V * rep.mat.map (fun x => (x : ℂ)) + R ∧ Vᴴ * R = 0 ∧
        (∀ j : Fin rep.dim, (j : ℕ) + 1 < rep.dim → ∀ a, R a j = 0) ∧
        ((rep.dim : ℤ) < K → ∀ j, norm2 (fun a => R a j) ≤ t) := by
  obtain ⟨hv, hd, hpos, hres, hend, hmat, hvec⟩ := krylov_shape h
  have hk0 : vdot (unit v0) (unit v0) = 1 := vdot_unit_self _ (by linarith)
  set k0 := unit v0 with hk0def
  have hon : ∀ i j : Fin rep.dim, vdot (seq M k0 i) (seq M k0 j) = if i = j then 1 else 0 := by
    intro i j
    by_cases hij : i = j
    · subst hij
      rw [if_pos rfl]
      exact seq_unit hk0 ht hres i.2
    · rw [if_neg hij]
      exact seq_orthogonal' hM hk0 (fun e => hij (Fin.ext e))
  have hmat' : ∀ i j : Fin rep.dim, ((rep.mat i j : ℝ) : ℂ) =
      vdot (seq M k0 i) (M.mulVec (seq M k0 j)) := by
    intro i j
    rw [hmat, ← stepAt_mat hM hk0 i j]
    simp only [Fin.ext_iff]
  let V : Matrix (Fin N) (Fin rep.dim) ℂ := fun a i => seq M k0 i a
  have hVH : ∀ w : Vec N, ∀ i, (Vᴴ *ᵥ w) i = vdot (seq M k0 i) w := by
    intro w i
    rfl
  have hcol : ∀ {m : ℕ} (A : Matrix (Fin N) (Fin m) ℂ) i j,
      (Vᴴ * A) i j = vdot (seq M k0 i) (fun a => A a j) := by
    intro m A i j
    rw [Matrix.mul_apply]
    rfl
  have hMV : ∀ j : Fin rep.dim, (fun a => (M * V) a j) = M.mulVec (seq M k0 j) := by
    intro j
    funext a
    rw [Matrix.mul_apply]
    rfl
  have hVT : ∀ j : Fin rep.dim,
      (fun a => (V * rep.mat.map (fun x => (x : ℂ))) a j) =
        ∑ i : Fin rep.dim, ((rep.mat i j : ℝ) : ℂ) • seq M k0 i := by
    intro j
    funext a
    rw [Matrix.mul_apply, Finset.sum_apply]
    refine Finset.sum_congr rfl fun i _ => ?_
    rw [Pi.smul_apply, smul_eq_mul, Matrix.map_apply, mul_comm]
  -- the sum over the basis picks at most three terms
  have hsum : ∀ j : Fin rep.dim, M.mulVec (seq M k0 j) -
      ∑ i : Fin rep.dim, ((rep.mat i j : ℝ) : ℂ) • seq M k0 i =
      if (j : ℕ) + 1 < rep.dim then 0 else res M k0 j := by
    intro j
    have key : ∑ i : Fin rep.dim, ((rep.mat i j : ℝ) : ℂ) • seq M k0 i =
        vdot (seq M k0 j) (M.mulVec (seq M k0 j)) • seq M k0 j +
        vdot (pairSeq M k0 j).2 (M.mulVec (seq M k0 j)) • (pairSeq M k0 j).2 +
        (if (j : ℕ) + 1 < rep.dim then
          vdot (seq M k0 (j + 1)) (M.mulVec (seq M k0 j)) • seq M k0 (j + 1) else 0) := by
      have h3 : ∀ i : Fin rep.dim, ((rep.mat i j : ℝ) : ℂ) • seq M k0 i =
          (if i = j then vdot (seq M k0 j) (M.mulVec (seq M k0 j)) • seq M k0 j else 0) +
          (if (i : ℕ) + 1 = j then
            vdot (pairSeq M k0 j).2 (M.mulVec (seq M k0 j)) • (pairSeq M k0 j).2 else 0) +
          (if (i : ℕ) = j + 1 then
            vdot (seq M k0 (j + 1)) (M.mulVec (seq M k0 j)) • seq M k0 (j + 1) else 0) := by
        intro i
        rw [hmat']
        by_cases e1 : i = j
        · subst e1
          rw [if_pos rfl, if_neg (by omega), if_neg (by omega), add_zero, add_zero]
        rw [if_neg e1]
        by_cases e2 : (i : ℕ) + 1 = j
        · rw [if_pos e2, if_neg (by omega), ← e2, pair_old_succ, zero_add, add_zero]
        rw [if_neg e2]
        by_cases e3 : (i : ℕ) = j + 1
        · rw [if_pos e3, e3, zero_add, zero_add]
        rw [if_neg e3]
        have : (i : ℕ) ≠ j := fun e => e1 (Fin.ext e)
        rcases lt_or_gt_of_ne this with hlt | hlt
        · rw [vdot_M_far hM hk0 (by omega)]; simp
        · rw [vdot_hermitian hM, ← vdot_conj, vdot_M_far hM hk0 (by omega)]; simp
      rw [Finset.sum_congr rfl fun i _ => h3 i, Finset.sum_add_distrib, Finset.sum_add_distrib]
      congr 1
      · congr 1
        · simp
        · rcases Nat.eq_zero_or_pos (j : ℕ) with hj | hj
          · have : (pairSeq M k0 j).2 = 0 := by rw [hj]; rfl
            rw [this, smul_zero]
            simp
          · have : ∀ i : Fin rep.dim, ((i : ℕ) + 1 = j) = (i = ⟨j - 1, by omega⟩) := by
              intro i
              rw [Fin.ext_iff]
              exact propext ⟨fun e => by simp; omega, fun e => by simp at e; omega⟩
            simp only [this, Finset.sum_ite_eq', Finset.mem_univ, if_true]
      · by_cases hj : (j : ℕ) + 1 < rep.dim
        · have : ∀ i : Fin rep.dim, ((i : ℕ) = j + 1) = (i = ⟨j + 1, hj⟩) := by
            intro i
            rw [Fin.ext_iff]
          simp only [this, Finset.sum_ite_eq', Finset.mem_univ, if_true, if_pos hj]
        · rw [if_neg hj]
          apply Finset.sum_eq_zero
          intro i _
          rw [if_neg (by have := i.2; omega)]
    rw [key]
    have h3 := three_term (M := M) (k0 := k0) (j : ℕ)
    by_cases hj : (j : ℕ) + 1 < rep.dim
    · rw [if_pos hj, if_pos hj]
      have : vdot (seq M k0 (j + 1)) (M.mulVec (seq M k0 j)) = (norm2 (res M k0 j) : ℂ) := by
        rw [vdot_hermitian hM, ← vdot_conj, vdot_M_next hM hk0, seq_unit hk0 ht hres hj, mul_one]
        simp
      rw [this]
      rw [sub_eq_zero]
      exact h3
    · rw [if_neg hj, if_neg hj, add_zero]
      rw [seq_succ, norm_smul_unit] at h3
      rw [sub_eq_iff_eq_add]
      conv_lhs => rw [h3]
      abel
  refine ⟨V, ⟨?_, ?_⟩, ?_, ?_, ⟨?_, ?_⟩, ?_, ?_,
    M * V - V * rep.mat.map (fun x => (x : ℂ)), ?_, ?_, ?_, ?_⟩
  · ext i j
    rw [hcol, Matrix.one_apply, ← hon]
  · intro j
    exact seq_mem_span v0 j
  · ext i j
    rw [Matrix.mul_assoc, hcol, Matrix.map_apply, hmat', hMV]
  · intro key
    funext i
    rw [hVH, hvec]
  · ext i j
    rw [Matrix.transpose_apply]
    have : ((rep.mat j i : ℝ) : ℂ) = ((rep.mat i j : ℝ) : ℂ) := by
      have e1 : ((rep.mat i j : ℝ) : ℂ) = star ((rep.mat i j : ℝ) : ℂ) := by simp
      rw [e1, hmat' i j, vdot_conj, ← vdot_hermitian hM, hmat']
    exact_mod_cast this
  · intro i j hij
    have : ((rep.mat i j : ℝ) : ℂ) = 0 := by
      rw [hmat']
      rcases hij with hlt | hlt
      · exact vdot_M_far hM hk0 hlt
      · rw [vdot_hermitian hM, ← vdot_conj, vdot_M_far hM hk0 hlt, star_zero]
    exact_mod_cast this
  · intro i j hij
    have e : ((rep.mat i j : ℝ) : ℂ) = (norm2 (res M k0 i) : ℂ) := by
      rw [hmat', hij, vdot_M_next hM hk0, seq_unit hk0 ht hres (by rw [← hij]; exact j.2), mul_one]
    have e' : rep.mat i j = norm2 (res M k0 i) := by exact_mod_cast e
    rw [e']
    exact hres i (by rw [← hij]; exact j.2)
  · intro j hj a
    change seq M k0 j a = _
    rw [hj]
    rfl
  · abel
  · rw [Matrix.mul_sub]
    ext i j
    rw [Matrix.sub_apply, ← Matrix.mul_assoc, ← Matrix.mul_assoc]
    have h1 : Vᴴ * V = 1 := by
      ext i j
      rw [hcol, Matrix.one_apply, ← hon]
    rw [h1, Matrix.one_mul, Matrix.map_apply, hmat', Matrix.mul_assoc, hcol, hMV, sub_self]
    rfl
  · intro j hj a
    have := congrFun (hsum j) a
    rw [if_pos hj, ← hMV, ← hVT] at this
    exact this
  · intro hlt j
    have e : (fun a => (M * V - V * rep.mat.map (fun x => (x : ℂ))) a j) =
        if (j : ℕ) + 1 < rep.dim then 0 else res M k0 j := by
      rw [← hsum j, ← hMV, ← hVT]
      rfl
    rw [e]
    by_cases hj : (j : ℕ) + 1 < rep.dim
    · rw [if_pos hj, norm2_zero]; exact ht
    · rw [if_neg hj]
      have hj' : (j : ℕ) = rep.dim - 1 := by have := j.2; omega
      rw [hj']
      exact hend (by omega)

/-- C57.  The call raises ValueError exactly when the start vector is (numerically) zero, and
nothing else; this needs no assumption on the matrix. -/
theorem C57_raises_iff : ((∃ e, krylov t M vectors v0 K = .error e) ↔ norm2 v0 ≤ t) ∧
    ∀ e, krylov t M vectors v0 K = .error e → e = .valueError := by
  unfold krylov
  by_cases h : t < norm2 v0
  · rw [if_pos h]
    exact ⟨⟨fun ⟨e, he⟩ => by simp at he, fun hle => absurd h (not_lt.mpr hle)⟩,
      fun e he => by simp at he⟩
  · rw [if_neg h]
    exact ⟨⟨fun _ => not_lt.mp h, fun _ => ⟨_, rfl⟩⟩, fun e he => by cases he; rfl⟩

/-- C57.  The threshold is never negative, whatever calls of `set_threshold` were made: the
assumption `0 ≤ t` of the theorems here always holds.  It is the last accepted argument, that is the last float that
is not negative, and 1e-4 if there is none. -/
theorem C57_threshold (calls : List ThresholdArg) : 0 ≤ thresholdAfter calls ∧
    (∀ x, 0 ≤ x → thresholdAfter (calls ++ [.float x]) = x) ∧
    ((∀ x, .float x ∈ calls → x < 0) → thresholdAfter calls = 1 / 10 ^ 4) ∧
    ∀ x, 0 ≤ x → ∀ later : List ThresholdArg, (∀ y, .float y ∈ later → y < 0) →
      thresholdAfter (calls ++ .float x :: later) = x := by
  have rej : ∀ (t : ℝ) (l : List ThresholdArg), (∀ y, .float y ∈ l → y < 0) →
      l.foldl (fun t a => match setThreshold a with | .ok x => x | .error _ => t) t = t := by
    intro t l
    induction l generalizing t with
    | nil => intro _; rfl
    | cons a l ih =>
      intro h
      rw [List.foldl_cons]
      cases a with
      | other => exact ih _ fun y hy => h y (List.mem_cons_of_mem _ hy)
      | float x =>
        have hx : ¬ 0 ≤ x := not_le.2 (h x (by simp))
        simp only [setThreshold, hx, raise]
        exact ih _ fun y hy => h y (List.mem_cons_of_mem _ hy)
  refine ⟨?_, ?_, fun h => (rej (1 / 10000) calls h).trans (by norm_num), fun x hx later h => ?_⟩
  · induction calls using List.reverseRecOn with
    | nil => simp [thresholdAfter]
    | append_singleton l a ih =>
      unfold thresholdAfter at ih ⊢
      rw [List.foldl_append]
      simp only [List.foldl_cons, List.foldl_nil]
      cases a with
      | other => exact ih
      | float x =>
        by_cases hx : 0 ≤ x
        · simpa [setThreshold, hx] using hx
        · simpa [setThreshold, hx, raise] using ih
  · intro x hx
    unfold thresholdAfter
    rw [List.foldl_append]
    simp [setThreshold, hx]
  · unfold thresholdAfter
    rw [List.foldl_append, List.foldl_cons]
    simp only [setThreshold, hx, decide_true, if_true]
    exact rej _ _ h

/-- C57.  Dimensions: all returned objects have the dimension `rep.dim` by their type;
`1 ≤ dim ≤ krylov_space_dim` for a positive `krylov_space_dim` (and dim = 0 otherwise), and in
exact arithmetic `dim ≤ N`. -/
theorem C57_dimension (hM : M.IsHermitian) (ht : 0 ≤ t)
    (h : krylov t M vectors v0 K = .ok rep) :
    (0 < K → 1 ≤ rep.dim ∧ (rep.dim : ℤ) ≤ K) ∧ (K ≤ 0 → rep.dim = 0) ∧ rep.dim ≤ N := by
  obtain ⟨hv, hd, hpos, hres, hend, hmat, hvec⟩ := krylov_shape h
  refine ⟨fun hK => ⟨hpos (by omega), by omega⟩, fun hK => by omega, ?_⟩
  have hk0 : vdot (unit v0) (unit v0) = 1 := vdot_unit_self _ (by linarith)
  apply card_le_of_orthonormal (fun i : Fin rep.dim => seq M (unit v0) i)
  intro i j
  by_cases hij : i = j
  · subst hij
    rw [if_pos rfl]
    exact seq_unit hk0 ht hres i.2
  · rw [if_neg hij]
    exact seq_orthogonal' hM hk0 (fun e => hij (Fin.ext e))

/-- C57.  The start vector (whenever it is one of the projected vectors) is represented by
`(norm(v0), 0, …, 0)`. -/
theorem C57_start_vector (hM : M.IsHermitian) (ht : 0 ≤ t)
    (h : krylov t M vectors v0 K = .ok rep) (key : κ) (hkey : vectors key = v0) :
    ∀ i, rep.vec key i = if (i : ℕ) = 0 then (norm2 v0 : ℂ) else 0 := by
  obtain ⟨hv, hd, hpos, hres, hend, hmat, hvec⟩ := krylov_shape h
  have hk0 : vdot (unit v0) (unit v0) = 1 := vdot_unit_self _ (by linarith)
  intro i
  have hv0 : v0 = (norm2 v0 : ℂ) • seq M (unit v0) 0 := (norm_smul_unit v0).symm
  rw [hvec, hkey]
  rw [show vdot (seq M (unit v0) i) v0 =
    vdot (seq M (unit v0) i) ((norm2 v0 : ℂ) • seq M (unit v0) 0) from congrArg _ hv0,
    vdot_smul_right]
  by_cases hi : (i : ℕ) = 0
  · rw [if_pos hi, hi]
    have : vdot (seq M (unit v0) 0) (seq M (unit v0) 0) = 1 := hk0
    rw [this, mul_one]
  · rw [if_neg hi, seq_orthogonal' hM hk0 hi, mul_zero]

/-- C57.  `MultiKrylov` returns one representation per key, each that of `KrylovRepresentation`
started from that vector, and raises (ValueError) exactly if one of the vectors is (numerically)
zero. -/
theorem C57_multi {keys : List κ} :
    (∀ reps, multiKrylov t M keys vectors K = .ok reps ↔
      List.Forall₂ (fun key rep => krylov t M vectors (vectors key) K = .ok rep) keys reps) ∧
    ((∃ e, multiKrylov t M keys vectors K = .error e) ↔ ∃ key ∈ keys, norm2 (vectors key) ≤ t) ∧
    ∀ e, multiKrylov t M keys vectors K = .error e → e = .valueError := by
  unfold multiKrylov
  induction keys with
  | nil => simp [pure, Except.pure, eq_comm]
  | cons key keys ih =>
    obtain ⟨ih1, ih2, ih3⟩ := ih
    have hr := C57_raises_iff (t := t) (M := M) (vectors := vectors) (v0 := vectors key) (K := K)
    rw [List.mapM_cons]
    rcases hk : krylov t M vectors (vectors key) K with e | rep
    · have hle : norm2 (vectors key) ≤ t := hr.1.mp ⟨e, hk⟩
      refine ⟨?_, ?_, ?_⟩
      · intro reps
        simp only [bind, Except.bind, reduceCtorEq, false_iff]
        intro hf
        cases hf with
        | cons h1 _ => rw [hk] at h1; simp at h1
      · exact ⟨fun _ => ⟨key, by simp, hle⟩, fun _ => ⟨e, rfl⟩⟩
      · intro e' he'
        simp only [bind, Except.bind, Except.error.injEq] at he'
        subst he'
        exact hr.2 _ hk
    · have hnot : ¬ norm2 (vectors key) ≤ t := by
        intro hle
        obtain ⟨e, he⟩ := hr.1.mpr hle
        rw [hk] at he; simp at he
      rcases hm : keys.mapM (fun key => krylov t M vectors (vectors key) K) with e | reps'
      · rw [hm] at ih1 ih2 ih3
        refine ⟨?_, ?_, ?_⟩
        · intro reps
          simp only [bind, Except.bind, reduceCtorEq, false_iff]
          intro hf
          cases hf with
          | cons _ h2 => have := (ih1 _).mpr h2; simp at this
        · refine ⟨fun _ => ?_, fun _ => ⟨e, rfl⟩⟩
          obtain ⟨k, hk1, hk2⟩ := ih2.mp ⟨e, rfl⟩
          exact ⟨k, by simp [hk1], hk2⟩
        · intro e' he'
          simp only [bind, Except.bind, Except.error.injEq] at he'
          subst he'
          exact ih3 _ rfl
      · rw [hm] at ih1 ih2 ih3
        refine ⟨?_, ?_, ?_⟩
        · intro reps
          simp only [bind, Except.bind, pure, Except.pure, Except.ok.injEq]
          constructor
          · rintro rfl
            exact List.Forall₂.cons hk ((ih1 _).mp rfl)
          · intro hf
            cases hf with
            | cons h1 h2 =>
              have := (ih1 _).mpr h2
              simp only [Except.ok.injEq] at this
              rw [hk] at h1
              simp only [Except.ok.injEq] at h1
              rw [h1, this]
        · refine ⟨fun ⟨e, he⟩ => by simp [bind, Except.bind, pure, Except.pure] at he, ?_⟩
          rintro ⟨k, hk1, hk2⟩
          rcases List.mem_cons.mp hk1 with rfl | hk1
          · exact absurd hk2 hnot
          · obtain ⟨e, he⟩ := ih2.mpr ⟨k, hk1, hk2⟩
            simp at he
        · intro e he
          simp [bind, Except.bind, pure, Except.pure] at he

/-- Non-vacuity: the 2x2 exchange matrix started from the first unit vector with
`krylov_space_dim = 5` and threshold 0: Hermitian, the call returns, and the iteration stops at
dimension 2. -/
theorem swap_example : ((!![0, 1; 1, 0] : Matrix (Fin 2) (Fin 2) ℂ).IsHermitian) ∧
    ∃ rep, krylov 0 (!![0, 1; 1, 0] : Matrix (Fin 2) (Fin 2) ℂ)
      (fun _ : Unit => (![1, 0] : Vec 2)) ![1, 0] 5 = .ok rep ∧ rep.dim = 2 := by
  refine ⟨?_, ?_⟩
  · ext i j
    fin_cases i <;> fin_cases j <;> simp [conjTranspose_apply]
  · have hn : norm2 (![1, 0] : Vec 2) = 1 := by simp [norm2]
    have hn' : norm2 (![0, 1] : Vec 2) = 1 := by simp [norm2]
    have e0 : (fun i => (![1, 0] : Vec 2) i / ((norm2 (![1, 0] : Vec 2) : ℝ) : ℂ)) = ![1, 0] := by
      rw [hn]; funext i; simp
    have r0 : residual (!![0, 1; 1, 0] : Matrix (Fin 2) (Fin 2) ℂ) ![1, 0] 0 = ![0, 1] := by
      funext i
      fin_cases i <;> simp [residual, vdot]
    have r1 : residual (!![0, 1; 1, 0] : Matrix (Fin 2) (Fin 2) ℂ) ![0, 1] ![1, 0] = 0 := by
      funext i
      fin_cases i <;> simp [residual, vdot]
    have e1 : (fun i => (![0, 1] : Vec 2) i / ((norm2 (![0, 1] : Vec 2) : ℝ) : ℂ)) = ![0, 1] := by
      rw [hn']; funext i; simp
    unfold krylov
    rw [if_pos (by rw [hn]; norm_num), e0]
    refine ⟨_, rfl, ?_⟩
    have h5 : (5 : ℤ).toNat = 3 + 1 + 1 := rfl
    simp only [h5, krylovSteps, r0]
    rw [if_pos (by rw [hn']; norm_num)]
    simp only [e1, r1, norm2_zero, lt_irrefl, if_false, List.length]

end Verif.Lanczos
