import Verif.Model.GreenFunction
import Verif.Proofs.Lanczos
import Verif.Proofs.PyLemmas
import Mathlib.LinearAlgebra.Matrix.ToLinearEquiv
import Mathlib.Analysis.InnerProductSpace.PiL2
/-!
# Lemmas for the Green-function solvers
-/

namespace Verif.Lanczos

open Matrix

variable {N : ℕ}

theorem norm2_eq_norm (a : Vec N) : norm2 a = ‖WithLp.toLp 2 a‖ := by
  rw [EuclideanSpace.norm_eq]
  unfold norm2
  congr 1
  refine Finset.sum_congr rfl fun i _ => ?_
  rw [Complex.normSq_eq_norm_sq]

theorem vdot_eq_inner (a b : Vec N) :
    vdot a b = inner ℂ (WithLp.toLp 2 a) (WithLp.toLp 2 b) := by
  rw [PiLp.inner_apply]
  unfold vdot
  refine Finset.sum_congr rfl fun i _ => ?_
  simp [mul_comm]

theorem norm_vdot_le (a b : Vec N) : ‖vdot a b‖ ≤ norm2 a * norm2 b := by
  rw [vdot_eq_inner, norm2_eq_norm, norm2_eq_norm]
  exact norm_inner_le_norm _ _

theorem norm2_smul (z : ℂ) (a : Vec N) : norm2 (z • a) = ‖z‖ * norm2 a := by
  rw [norm2_eq_norm, norm2_eq_norm, WithLp.toLp_smul, norm_smul]

theorem vdot_add_left (a b c : Vec N) : vdot (a + b) c = vdot a c + vdot b c := by
  rw [← vdot_conj, vdot_add_right, star_add, vdot_conj, vdot_conj]

/-- moving a rectangular matrix across the product -/
theorem vdot_conjTranspose {d : ℕ} (V : Matrix (Fin N) (Fin d) ℂ) (a : Vec N) (y : Vec d) :
    vdot (Vᴴ *ᵥ a) y = vdot a (V *ᵥ y) := by
  simp only [vdot, Matrix.mulVec, dotProduct, star_sum, star_mul', Finset.mul_sum, Finset.sum_mul,
    conjTranspose_apply, star_star]
  rw [Finset.sum_comm]
  refine Finset.sum_congr rfl fun i _ => Finset.sum_congr rfl fun j _ => ?_
  ring

theorem norm2_isometry {d : ℕ} {V : Matrix (Fin N) (Fin d) ℂ} (hV : Vᴴ * V = 1) (y : Vec d) :
    norm2 (V *ᵥ y) = norm2 y := by
  have h1 : vdot (V *ᵥ y) (V *ᵥ y) = vdot y y := by
    rw [← vdot_conjTranspose, Matrix.mulVec_mulVec, hV, Matrix.one_mulVec]
  rw [vdot_self, vdot_self] at h1
  have h2 : norm2 (V *ᵥ y) ^ 2 = norm2 y ^ 2 := by exact_mod_cast h1
  nlinarith [norm2_nonneg (V *ᵥ y), norm2_nonneg y, sq_nonneg (norm2 (V *ᵥ y) - norm2 y),
    sq_nonneg (norm2 (V *ᵥ y) + norm2 y), abs_eq_abs.mpr (sq_eq_sq_iff_eq_or_eq_neg.mp h2),
    abs_of_nonneg (norm2_nonneg (V *ᵥ y)), abs_of_nonneg (norm2_nonneg y)]

end Verif.Lanczos

namespace Verif.GF

open Matrix Verif.Lanczos

variable {N : ℕ} {HM : Matrix (Fin N) (Fin N) ℂ}

theorem shifted_mulVec (z : ℂ) (GE : ℝ) (sign : String) (x : Vec N) :
    shifted z GE HM sign *ᵥ x =
      if sign = "+" then (z - GE) • x + HM *ᵥ x else (z + GE) • x - HM *ᵥ x := by
  unfold shifted
  split_ifs
  · rw [Matrix.add_mulVec, Matrix.smul_mulVec, Matrix.one_mulVec]
  · rw [Matrix.sub_mulVec, Matrix.smul_mulVec, Matrix.one_mulVec]

/-- the imaginary part of the expectation value -/
theorem shifted_im (hH : HM.IsHermitian) (omega eta GE : ℝ) (sign : String) (x : Vec N) :
    (vdot x (shifted (zOf omega eta) GE HM sign *ᵥ x)).im = eta * norm2 x ^ 2 := by
  have hr : (vdot x (HM *ᵥ x)).im = 0 := by
    rw [← vdot_M_self_real hH]; exact Complex.ofReal_im _
  rw [shifted_mulVec]
  split_ifs
  · rw [vdot_add_right, vdot_smul_right, vdot_self, Complex.add_im, hr, add_zero,
      Complex.mul_im, Complex.ofReal_re, Complex.ofReal_im]
    simp [zOf]
  · rw [vdot_sub_right, vdot_smul_right, vdot_self, Complex.sub_im, hr, sub_zero,
      Complex.mul_im, Complex.ofReal_re, Complex.ofReal_im]
    simp [zOf]

/-- resolvent bound -/
theorem resolvent_bound (hH : HM.IsHermitian) (omega eta GE : ℝ) (sign : String) (x : Vec N) :
    |eta| * norm2 x ≤ norm2 (shifted (zOf omega eta) GE HM sign *ᵥ x) := by
  by_cases hx : norm2 x = 0
  · rw [hx, mul_zero]; exact norm2_nonneg _
  have hpos : 0 < norm2 x := lt_of_le_of_ne (norm2_nonneg x) (Ne.symm hx)
  have h1 := shifted_im hH omega eta GE sign x
  have h2 := norm_vdot_le x (shifted (zOf omega eta) GE HM sign *ᵥ x)
  have h3 := Complex.abs_im_le_norm (vdot x (shifted (zOf omega eta) GE HM sign *ᵥ x))
  rw [h1, abs_mul, abs_of_nonneg (sq_nonneg (norm2 x))] at h3
  have h4 : norm2 x * (|eta| * norm2 x) ≤
      norm2 x * norm2 (shifted (zOf omega eta) GE HM sign *ᵥ x) := by
    calc norm2 x * (|eta| * norm2 x) = |eta| * norm2 x ^ 2 := by ring
      _ ≤ _ := le_trans h3 h2
  exact le_of_mul_le_mul_left h4 hpos

theorem shifted_isUnit (hH : HM.IsHermitian) {omega eta GE : ℝ} (heta : eta ≠ 0)
    (sign : String) : IsUnit (shifted (zOf omega eta) GE HM sign).det := by
  rw [isUnit_iff_ne_zero]
  intro h0
  obtain ⟨x, hx, h⟩ := Matrix.exists_mulVec_eq_zero_iff.mpr h0
  have h1 := resolvent_bound hH omega eta GE sign x
  rw [h, norm2_zero] at h1
  have h2 : 0 < |eta| := abs_pos.mpr heta
  have h3 : norm2 x = 0 := by
    nlinarith [norm2_nonneg x]
  exact hx (norm2_eq_zero h3)

theorem solve_ok_iff {M : Matrix (Fin N) (Fin N) ℂ} {b x : Vec N} :
    solve M b = .ok x ↔ IsUnit M.det ∧ M *ᵥ x = b := by
  unfold solve
  by_cases h : IsUnit M.det
  · rw [if_pos h]
    simp only [Except.ok.injEq, h, true_and]
    constructor
    · rintro rfl
      rw [Matrix.mulVec_mulVec, Matrix.mul_nonsing_inv _ h, Matrix.one_mulVec]
    · rintro rfl
      rw [Matrix.mulVec_mulVec, Matrix.nonsing_inv_mul _ h, Matrix.one_mulVec]
  · rw [if_neg h]
    constructor
    · intro h'; simp [raise] at h'
    · rintro ⟨h', -⟩; exact absurd h' h

theorem solve_exists {M : Matrix (Fin N) (Fin N) ℂ} (h : IsUnit M.det) (b : Vec N) :
    ∃ x, solve M b = .ok x := by
  unfold solve
  rw [if_pos h]
  exact ⟨_, rfl⟩

theorem getItem_ok_iff {κ α : Type} {d : κ → Option α} {key : κ} {v : α} :
    getItem d key = .ok v ↔ d key = some v := by
  unfold getItem
  cases d key <;> simp [raise]

theorem real_symm_hermitian {d : ℕ} {T : Matrix (Fin d) (Fin d) ℝ} (h : Tᵀ = T) :
    (T.map fun x => (x : ℂ)).IsHermitian := by
  ext i j
  have : T j i = T i j := congrFun (congrFun h i) j
  simp [conjTranspose_apply, this]

/-! ### writes -/

theorem applyWrites_of_forall {ι α : Type} [DecidableEq ι] (init : ι → α) (ws : List (ι × α))
    (p : ι) (v : α) (hex : ∃ w ∈ ws, w.1 = p) (hall : ∀ w ∈ ws, w.1 = p → w.2 = v) :
    applyWrites init ws p = v := by
  unfold applyWrites
  induction ws using List.reverseRecOn with
  | nil => simp at hex
  | append_singleton ws w ih =>
    rw [List.foldl_append]
    simp only [List.foldl_cons, List.foldl_nil]
    by_cases hw : w.1 = p
    · subst hw
      rw [Function.update_self]
      exact hall w (by simp) rfl
    · rw [Function.update_of_ne (Ne.symm hw)]
      apply ih
      · obtain ⟨w', h1, h2⟩ := hex
        simp only [List.mem_append, List.mem_singleton] at h1
        rcases h1 with h1 | rfl
        · exact ⟨w', h1, h2⟩
        · exact absurd h2 hw
      · intro w' h1 h2
        exact hall w' (by simp [h1]) h2

theorem applyWrites_of_not_mem {ι α : Type} [DecidableEq ι] (init : ι → α) (ws : List (ι × α))
    (p : ι) (h : ∀ w ∈ ws, w.1 ≠ p) : applyWrites init ws p = init p := by
  unfold applyWrites
  induction ws using List.reverseRecOn with
  | nil => rfl
  | append_singleton ws w ih =>
    rw [List.foldl_append]
    simp only [List.foldl_cons, List.foldl_nil]
    rw [Function.update_of_ne (Ne.symm (h w (by simp)))]
    exact ih fun w' hw' => h w' (by simp [hw'])

theorem finRange_mapM_ok {β ε : Type} {n : ℕ} {f : Fin n → Except ε β} {r : List β} :
    (List.finRange n).mapM f = .ok r ↔ ∃ g : Fin n → β, r = List.ofFn g ∧ ∀ i, f i = .ok (g i) := by
  constructor
  · intro h
    have hlen : n = r.length := by simpa using mapM_ok_length h
    refine ⟨fun i => r[(i : ℕ)]'(hlen ▸ i.2), ?_, ?_⟩
    · apply List.ext_getElem
      · simp [← hlen]
      · intro i h1 h2
        simp
    · intro i
      have := mapM_ok_getElem h i (by simp)
      simpa using this
  · rintro ⟨g, rfl, h⟩
    rw [mapM_ok_iff]
    apply forall₂_of_getElem (by simp)
    intro i hi
    simpa using h ⟨i, by simpa using hi⟩

theorem except_ok_or_error {α : Type} (x : Py α) : (∃ a, x = .ok a) ∨ ∃ e, x = .error e := by
  cases x with
  | ok a => exact .inl ⟨a, rfl⟩
  | error e => exact .inr ⟨e, rfl⟩

/-! ### the loops against the single solvers -/

section

variable {κ : Type} {dagger : κ → κ} {omegas : List ℝ} {As Bs : List κ} {GE eta : ℝ}
  {excited : κ → Option (Vec N)} {sign : String} {proj : κ → Option (PRep κ)}

theorem exactSingle_ok_iff {omega : ℝ} {A B : κ} {v : ℂ} :
    exactSingle dagger omega A B GE HM excited eta sign = .ok v ↔
    ∃ b a x, excited B = some b ∧ excited (dagger A) = some a ∧
      solve (shifted (zOf omega eta) GE HM sign) b = .ok x ∧ v = vdot a x := by
  unfold exactSingle
  simp only [bind_ok_iff, getItem_ok_iff, pure, Except.pure, Except.ok.injEq]
  constructor
  · rintro ⟨b, hb, a, ha, x, hx, rfl⟩; exact ⟨b, a, x, hb, ha, hx, rfl⟩
  · rintro ⟨b, a, x, hb, ha, hx, rfl⟩; exact ⟨b, hb, a, ha, x, hx, rfl⟩

theorem lanczosSingle_ok_iff {omega : ℝ} {A B : κ} {v : ℂ} :
    lanczosSingle dagger omega A B GE proj eta sign = .ok v ↔
    ∃ r temp b a x, proj B = some r ∧ r.vec B = some temp ∧ firstOnly temp = .ok b ∧
      r.vec (dagger A) = some a ∧
      solve (shifted (zOf omega eta) GE r.cmat sign) b = .ok x ∧ v = vdot a x := by
  unfold lanczosSingle
  simp only [bind_ok_iff, getItem_ok_iff, pure, Except.pure, Except.ok.injEq]
  constructor
  · rintro ⟨r, hr, temp, htemp, b, hb, a, ha, x, hx, rfl⟩
    exact ⟨r, temp, b, a, x, hr, htemp, hb, ha, hx, rfl⟩
  · rintro ⟨r, temp, b, a, x, hr, htemp, hb, ha, hx, rfl⟩
    exact ⟨r, hr, temp, htemp, b, hb, a, ha, x, hx, rfl⟩

theorem exactArray_single {g G : Fin As.length × Fin Bs.length × Fin omegas.length → ℂ}
    (h : exactArray dagger omegas As Bs GE HM excited eta sign g = .ok G) (i : Fin As.length)
    (j : Fin Bs.length) (k : Fin omegas.length) :
    exactSingle dagger (omegas.get k) (As.get i) (Bs.get j) GE HM excited eta sign =
      .ok (G (i, j, k)) := by
  unfold exactArray at h
  simp only [bind_ok_iff, finRange_mapM_ok, getItem_ok_iff, pure, Except.pure,
    Except.ok.injEq] at h
  obtain ⟨ws, ⟨w, rfl, hw⟩, rfl⟩ := h
  choose w2 hw2 h2 using hw
  choose b hb ket hket w3 hw3 h3 using h2
  choose a ha h4 using h3
  rw [exactSingle_ok_iff]
  refine ⟨b k j, a k j i, ket k j, hb k j, ha k j i, hket k j, ?_⟩
  apply applyWrites_of_forall
  · refine ⟨((i, j, k), vdot (a k j i) (ket k j)), ?_, rfl⟩
    simp only [List.mem_flatten, List.mem_ofFn']
    refine ⟨w2 k j, ⟨w k, ⟨k, rfl⟩, ?_⟩, ?_⟩
    · rw [hw2 k]; simp
    · rw [hw3 k j, List.mem_ofFn]; exact ⟨i, (h4 k j i).symm⟩
  · intro v hv hvp
    simp only [List.mem_flatten, List.mem_ofFn'] at hv
    obtain ⟨l, ⟨l', ⟨k', rfl⟩, hl⟩, hv⟩ := hv
    rw [hw2 k', List.mem_ofFn] at hl
    obtain ⟨j', rfl⟩ := hl
    rw [hw3 k' j', List.mem_ofFn] at hv
    obtain ⟨i', rfl⟩ := hv
    rw [← h4 k' j' i'] at hvp ⊢
    simp only [Prod.mk.injEq] at hvp
    obtain ⟨rfl, rfl, rfl⟩ := hvp
    rfl

theorem exactArray_ok (hA : As ≠ [])
    (g : Fin As.length × Fin Bs.length × Fin omegas.length → ℂ)
    (h : ∀ i j k, ∃ v, exactSingle dagger (omegas.get k) (As.get i) (Bs.get j) GE HM excited eta
      sign = .ok v) :
    ∃ G, exactArray dagger omegas As Bs GE HM excited eta sign g = .ok G := by
  have i0 : Fin As.length := ⟨0, List.length_pos_iff.mpr hA⟩
  simp only [exactSingle_ok_iff] at h
  choose v b a x hb ha hx hv using h
  unfold exactArray
  simp only [bind_ok_iff, finRange_mapM_ok, getItem_ok_iff, pure, Except.pure,
    Except.ok.injEq]
  have hb' : ∀ i i' j k, b i j k = b i' j k := by
    intro i i' j k
    have h1 := hb i j k
    rw [hb i' j k] at h1
    exact (Option.some.inj h1).symm
  have ha' : ∀ i j k j' k', a i j k = a i j' k' := by
    intro i j k j' k'
    have h1 := ha i j k
    rw [ha i j' k'] at h1
    exact (Option.some.inj h1).symm
  refine ⟨_, _, ⟨fun k => List.ofFn fun j => List.ofFn fun i =>
    ((i, j, k), vdot (a i j k) (x i0 j k)), rfl, fun k => ⟨_, rfl, fun j => ?_⟩⟩, rfl⟩
  exact ⟨b i0 j k, hb i0 j k, x i0 j k, hx i0 j k, _, rfl, fun i => ⟨a i j k, ha i j k, rfl⟩⟩

theorem lanczosArray_single {g G : Fin As.length × Fin Bs.length × Fin omegas.length → ℂ}
    (h : lanczosArray dagger omegas As Bs GE proj eta sign g = .ok G) (i : Fin As.length)
    (j : Fin Bs.length) (k : Fin omegas.length) :
    lanczosSingle dagger (omegas.get k) (As.get i) (Bs.get j) GE proj eta sign =
      .ok (G (i, j, k)) := by
  unfold lanczosArray at h
  simp only [bind_ok_iff, finRange_mapM_ok, getItem_ok_iff, pure, Except.pure,
    Except.ok.injEq] at h
  obtain ⟨ws, ⟨w, rfl, hw⟩, rfl⟩ := h
  choose r hr temp htemp b hb w2 hw2 h2 using hw
  choose ket hket w3 hw3 h3 using h2
  choose a ha h4 using h3
  rw [lanczosSingle_ok_iff]
  refine ⟨r j, temp j, b j, a j k i, ket j k, hr j, htemp j, hb j, ha j k i, hket j k, ?_⟩
  apply applyWrites_of_forall
  · refine ⟨((i, j, k), vdot (a j k i) (ket j k)), ?_, rfl⟩
    simp only [List.mem_flatten, List.mem_ofFn']
    refine ⟨w2 j k, ⟨w j, ⟨j, rfl⟩, ?_⟩, ?_⟩
    · rw [hw2 j]; simp
    · rw [hw3 j k, List.mem_ofFn]; exact ⟨i, (h4 j k i).symm⟩
  · intro v hv hvp
    simp only [List.mem_flatten, List.mem_ofFn'] at hv
    obtain ⟨l, ⟨l', ⟨j', rfl⟩, hl⟩, hv⟩ := hv
    rw [hw2 j', List.mem_ofFn] at hl
    obtain ⟨k', rfl⟩ := hl
    rw [hw3 j' k', List.mem_ofFn] at hv
    obtain ⟨i', rfl⟩ := hv
    rw [← h4 j' k' i'] at hvp ⊢
    simp only [Prod.mk.injEq] at hvp
    obtain ⟨rfl, rfl, rfl⟩ := hvp
    rfl

theorem lanczosArray_ok (hA : As ≠ []) (hO : omegas ≠ [])
    (g : Fin As.length × Fin Bs.length × Fin omegas.length → ℂ)
    (h : ∀ i j k, ∃ v, lanczosSingle dagger (omegas.get k) (As.get i) (Bs.get j) GE proj eta
      sign = .ok v) :
    ∃ G, lanczosArray dagger omegas As Bs GE proj eta sign g = .ok G := by
  have i0 : Fin As.length := ⟨0, List.length_pos_iff.mpr hA⟩
  have k0 : Fin omegas.length := ⟨0, List.length_pos_iff.mpr hO⟩
  simp only [lanczosSingle_ok_iff] at h
  have h0 : ∀ j, ∃ r temp b, proj (Bs.get j) = some r ∧ r.vec (Bs.get j) = some temp ∧
      firstOnly temp = .ok b := by
    intro j
    obtain ⟨v, r, temp, b, a, x, hr, htemp, hb, ha, hx, hv⟩ := h i0 j k0
    exact ⟨r, temp, b, hr, htemp, hb⟩
  choose r temp b hr htemp hb using h0
  have h1 : ∀ i j k, ∃ a x, (r j).vec (dagger (As.get i)) = some a ∧
      solve (shifted (zOf (omegas.get k) eta) GE (r j).cmat sign) (b j) = .ok x := by
    intro i j k
    obtain ⟨v, r', temp', b', a', x', hr', htemp', hb', ha', hx', hv'⟩ := h i j k
    rw [hr j] at hr'
    obtain rfl := Option.some.inj hr'
    rw [htemp j] at htemp'
    obtain rfl := Option.some.inj htemp'
    rw [hb j] at hb'
    obtain rfl := Except.ok.inj hb'
    exact ⟨a', x', ha', hx'⟩
  choose a x ha hx using h1
  unfold lanczosArray
  simp only [bind_ok_iff, finRange_mapM_ok, getItem_ok_iff, pure, Except.pure,
    Except.ok.injEq]
  refine ⟨_, _, ⟨fun j => List.ofFn fun k => List.ofFn fun i =>
    ((i, j, k), vdot (a i j k) (x i0 j k)), rfl, fun j => ?_⟩, rfl⟩
  refine ⟨r j, hr j, temp j, htemp j, b j, hb j, _, rfl, fun k => ?_⟩
  exact ⟨x i0 j k, hx i0 j k, _, rfl, fun i => ⟨a i j k, ha i j k, rfl⟩⟩

end

end Verif.GF
