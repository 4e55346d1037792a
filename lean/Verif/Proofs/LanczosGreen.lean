import Verif.Proofs.GreenFunction
import Verif.Props.Lanczos
import Verif.Spec.GreenFunction
/-!
# Lemmas for C58 and C59
-/

namespace Verif.GF

open Matrix Verif.Lanczos

variable {N : ℕ} {κ : Type} [DecidableEq κ] {dagger : κ → κ} {omegas : List ℝ} {As Bs : List κ}
  {GE eta : ℝ} {HM : Matrix (Fin N) (Fin N) ℂ} {excited : κ → Option (Vec N)}
  {sign struct : String} {proj : κ → Option (PRep κ)}

/-- an invariant Krylov space leaves no defect -/
theorem defect_zero {d : ℕ} {v0 : Vec N} (hd : 0 < d) (hv : norm2 v0 ≠ 0)
    {V R : Matrix (Fin N) (Fin d) ℂ} {T : Matrix (Fin d) (Fin d) ℝ} (hV : Vᴴ * V = 1)
    (hMV : HM * V = V * T.map (fun x => (x : ℂ)) + R) (hVR : Vᴴ * R = 0)
    (hR : ∀ j : Fin d, (j : ℕ) + 1 < d → ∀ a, R a j = 0)
    (hcol0 : ∀ j : Fin d, (j : ℕ) = 0 → ∀ a, V a j = v0 a / (norm2 v0 : ℂ))
    (hband : IsSymTridiagonal T) (hpos : ∀ i j : Fin d, (j : ℕ) = i + 1 → 0 < T i j)
    (hinv : (HM ^ d) *ᵥ v0 ∈ Submodule.span ℂ {w | ∃ k < d, w = (HM ^ k) *ᵥ v0}) : R = 0 := by
  have hc : (norm2 v0 : ℂ) ≠ 0 := by exact_mod_cast hv
  -- M^k v0 in the basis
  have key : ∀ k (hk : k < d), ∃ c : Vec d, c ⟨k, hk⟩ ≠ 0 ∧ (∀ i : Fin d, k < i → c i = 0) ∧
      (HM ^ k) *ᵥ v0 = V *ᵥ c := by
    intro k
    induction k with
    | zero =>
      intro hk
      refine ⟨Pi.single ⟨0, hk⟩ (norm2 v0 : ℂ), by simpa using hc, ?_, ?_⟩
      · intro i hi
        rw [Pi.single_apply, if_neg]
        intro e; rw [e] at hi; simp at hi
      · funext a
        rw [pow_zero, Matrix.one_mulVec, Matrix.mulVec_single]
        simp only [Pi.smul_apply, MulOpposite.smul_eq_mul_unop, MulOpposite.unop_op, Matrix.col]
        rw [Matrix.transpose_apply, hcol0 _ rfl, div_mul_cancel₀ _ hc]
    | succ k ih =>
      intro hk
      obtain ⟨c, hck, hc0, hck2⟩ := ih (by omega)
      refine ⟨(T.map fun x => (x : ℂ)) *ᵥ c, ?_, ?_, ?_⟩
      · have : ((T.map fun x => (x : ℂ)) *ᵥ c) ⟨k + 1, hk⟩ =
            ((T ⟨k + 1, hk⟩ ⟨k, by omega⟩ : ℝ) : ℂ) * c ⟨k, by omega⟩ := by
          simp only [Matrix.mulVec, dotProduct, Matrix.map_apply]
          rw [Finset.sum_eq_single (⟨k, by omega⟩ : Fin d)]
          · intro i _ hi
            rcases lt_or_gt_of_ne (fun e : (i : ℕ) = k => hi (Fin.ext e)) with h | h
            · rw [hband.band _ _ (Or.inr (by simpa using h))]; simp
            · rw [hc0 i h, mul_zero]
          · simp
        rw [this]
        apply mul_ne_zero _ hck
        have h1 : T ⟨k + 1, hk⟩ ⟨k, by omega⟩ = T ⟨k, by omega⟩ ⟨k + 1, hk⟩ :=
          congrFun (congrFun hband.symm ⟨k, by omega⟩) ⟨k + 1, hk⟩
        have h2 := hpos ⟨k, by omega⟩ ⟨k + 1, hk⟩ rfl
        rw [h1]
        exact_mod_cast h2.ne'
      · intro i hi
        simp only [Matrix.mulVec, dotProduct, Matrix.map_apply]
        apply Finset.sum_eq_zero
        intro j _
        by_cases hj : k < (j : ℕ)
        · rw [hc0 j hj, mul_zero]
        · rw [hband.band i j (Or.inr (by omega))]; simp
      · rw [pow_succ', ← Matrix.mulVec_mulVec, hck2, Matrix.mulVec_mulVec, hMV,
          Matrix.add_mulVec, ← Matrix.mulVec_mulVec]
        have : R *ᵥ c = 0 := by
          funext a
          simp only [Matrix.mulVec, dotProduct, Pi.zero_apply]
          apply Finset.sum_eq_zero
          intro j _
          by_cases hj : (j : ℕ) + 1 < d
          · rw [hR j hj, zero_mul]
          · rw [hc0 j (by omega), mul_zero]
        rw [this, add_zero]
  -- the span lies in the range of V
  have hran : ∀ w ∈ Submodule.span ℂ {w | ∃ k < d, w = (HM ^ k) *ᵥ v0}, ∃ c, w = V *ᵥ c := by
    intro w hw
    induction hw using Submodule.span_induction with
    | mem x hx =>
      obtain ⟨k, hk, rfl⟩ := hx
      obtain ⟨c, -, -, h⟩ := key k hk
      exact ⟨c, h⟩
    | zero => exact ⟨0, by simp⟩
    | add x y _ _ hx hy =>
      obtain ⟨c1, rfl⟩ := hx
      obtain ⟨c2, rfl⟩ := hy
      exact ⟨c1 + c2, by rw [Matrix.mulVec_add]⟩
    | smul z x _ hx =>
      obtain ⟨c1, rfl⟩ := hx
      exact ⟨z • c1, by rw [Matrix.mulVec_smul]⟩
  obtain ⟨c', hc'⟩ := hran _ hinv
  obtain ⟨c, hclast, -, hcd⟩ := key (d - 1) (by omega)
  have hstep : (HM ^ d) *ᵥ v0 = V *ᵥ ((T.map fun x => (x : ℂ)) *ᵥ c) + R *ᵥ c := by
    have e : HM ^ d = HM ^ ((d - 1) + 1) := by congr 1; omega
    rw [e, pow_succ', ← Matrix.mulVec_mulVec, hcd, Matrix.mulVec_mulVec, hMV, Matrix.add_mulVec, ← Matrix.mulVec_mulVec]
  have hRc : R *ᵥ c = V *ᵥ (c' - (T.map fun x => (x : ℂ)) *ᵥ c) := by
    rw [Matrix.mulVec_sub, ← hc', hstep]; abel
  have hz : R *ᵥ c = 0 := by
    have h1 := congrArg (fun w => Vᴴ *ᵥ w) hRc
    simp only [Matrix.mulVec_mulVec, hVR, hV, Matrix.zero_mulVec, Matrix.one_mulVec] at h1
    rw [hRc, ← h1, Matrix.mulVec_zero]
  ext a j
  by_cases hj : (j : ℕ) + 1 < d
  · exact hR j hj a
  · have hjl : j = ⟨d - 1, by omega⟩ := Fin.ext (by have := j.2; simp; omega)
    have h1 := congrFun hz a
    simp only [Matrix.mulVec, dotProduct, Pi.zero_apply] at h1
    rw [Finset.sum_eq_single j] at h1
    · rw [hjl] at h1 ⊢
      rcases mul_eq_zero.mp h1 with h | h
      · exact h
      · exact absurd h hclast
    · intro i _ hi
      rw [hR i (by
        have h1 := i.2
        have h2 : (i : ℕ) ≠ j := fun e => hi (Fin.ext e)
        omega), zero_mul]
    · simp

omit [DecidableEq κ] in
theorem rgfExactSingle_ok_iff {omega : ℝ} {A B : κ} {v : ℂ} :
    rgfExactSingle dagger omega A B GE HM excited eta sign = .ok v ↔
    ∃ ab ba, exactSingle dagger omega A B GE HM excited eta "-" = .ok ab ∧
      exactSingle dagger omega B A GE HM excited eta "+" = .ok ba ∧
      v = if sign = "+" then ab + ba else ab - ba := by
  have hm : (if ("-" : String) = "+" then
      (zOf omega eta - GE) • (1 : Matrix (Fin N) (Fin N) ℂ) + HM
      else (zOf omega eta + GE) • (1 : Matrix (Fin N) (Fin N) ℂ) - HM) =
      (zOf omega eta + GE) • (1 : Matrix (Fin N) (Fin N) ℂ) - HM := by
    rw [if_neg (by decide)]
  simp only [exactSingle_ok_iff]
  unfold rgfExactSingle
  simp only [bind_ok_iff, getItem_ok_iff, pure, Except.pure, Except.ok.injEq, shifted, if_true, hm]
  constructor
  · rintro ⟨a, ha, b, hb, ad, had, bd, hbd, x1, hx1, x2, hx2, rfl⟩
    exact ⟨_, _, ⟨b, ad, x1, hb, had, hx1, rfl⟩, ⟨a, bd, x2, ha, hbd, hx2, rfl⟩, rfl⟩
  · rintro ⟨_, _, ⟨b, ad, x1, hb, had, hx1, rfl⟩, ⟨a, bd, x2, ha, hbd, hx2, rfl⟩, rfl⟩
    exact ⟨a, ha, b, hb, ad, had, bd, hbd, x1, hx1, x2, hx2, rfl⟩

/-- a table of rows becomes the right array or dict -/
theorem tabulates_dict {single : ℝ → κ → κ → Py ℂ}
    {row : Fin As.length → Fin Bs.length → Fin omegas.length → ℂ}
    (h : ∀ i j k, single (omegas.get k) (As.get i) (Bs.get j) = .ok (row i j k)) :
    Tabulates single omegas As Bs (.dict (applyWrites (fun _ => none)
      ((List.finRange As.length).flatMap fun i => (List.finRange Bs.length).map fun j =>
        ((As.get i, Bs.get j), some (row i j))))) := by
  intro A B
  by_cases hAB : A ∈ As ∧ B ∈ Bs
  · obtain ⟨i, hi⟩ := List.mem_iff_get.mp hAB.1
    obtain ⟨j, hj⟩ := List.mem_iff_get.mp hAB.2
    have hval := applyWrites_of_forall (fun _ => none)
      ((List.finRange As.length).flatMap fun i => (List.finRange Bs.length).map fun j =>
        ((As.get i, Bs.get j), some (row i j))) (A, B) (some (row i j))
      (by
        refine ⟨((As.get i, Bs.get j), some (row i j)), ?_, by rw [hi, hj]⟩
        simp only [List.mem_flatMap, List.mem_map, List.mem_finRange, true_and]
        exact ⟨i, j, rfl⟩)
      (by
        intro w hw hp
        simp only [List.mem_flatMap, List.mem_map, List.mem_finRange, true_and] at hw
        obtain ⟨i', j', rfl⟩ := hw
        simp only [Prod.mk.injEq] at hp
        change some (row i' j') = some (row i j)
        congr 1
        funext k
        have h1 := h i j k
        have h2 := h i' j' k
        rw [hp.1, hp.2, ← hi, ← hj, h1] at h2
        exact (Except.ok.inj h2).symm)
    rw [hval]
    refine ⟨by simp [hAB], ?_⟩
    intro r hr k
    obtain rfl := Option.some.inj hr
    rw [← h i j k, hi, hj]
  · have hval := applyWrites_of_not_mem (fun _ => none)
      ((List.finRange As.length).flatMap fun i => (List.finRange Bs.length).map fun j =>
        ((As.get i, Bs.get j), some (row i j))) (A, B)
      (by
        intro w hw hp
        simp only [List.mem_flatMap, List.mem_map, List.mem_finRange, true_and] at hw
        obtain ⟨i', j', rfl⟩ := hw
        simp only [Prod.mk.injEq] at hp
        exact hAB ⟨hp.1 ▸ List.get_mem _ _, hp.2 ▸ List.get_mem _ _⟩)
    rw [hval]
    refine ⟨by simp [hAB], ?_⟩
    intro r hr
    simp at hr

theorem structured_tabulates {single : ℝ → κ → κ → Py ℂ}
    {G : Fin As.length × Fin Bs.length × Fin omegas.length → ℂ}
    (h : ∀ i j k, single (omegas.get k) (As.get i) (Bs.get j) = .ok (G (i, j, k))) :
    Tabulates single omegas As Bs (structured As Bs G struct) ∧
    ((structured As Bs G struct).IsDict ↔ struct = "dict") := by
  unfold structured
  by_cases hs : struct = "dict"
  · rw [if_pos hs]
    exact ⟨tabulates_dict (row := fun i j k => G (i, j, k)) h, by simp [GFs.IsDict, hs]⟩
  · rw [if_neg hs]
    exact ⟨h, by simp [GFs.IsDict, hs]⟩

theorem combined_tabulates {single : ℝ → κ → κ → Py ℂ}
    {AB : Fin As.length × Fin Bs.length × Fin omegas.length → ℂ}
    {BA : Fin Bs.length × Fin As.length × Fin omegas.length → ℂ}
    (g : Fin As.length × Fin Bs.length → Fin omegas.length → ℂ)
    (h : ∀ i j k, single (omegas.get k) (As.get i) (Bs.get j) =
      .ok (if sign = "+" then AB (i, j, k) + BA (j, i, k) else AB (i, j, k) - BA (j, i, k))) :
    Tabulates single omegas As Bs (combined As Bs AB BA sign struct g) ∧
    ((combined As Bs AB BA sign struct g).IsDict ↔ struct = "dict") := by
  unfold combined
  by_cases hs : struct = "dict"
  · simp only [if_pos hs]
    exact ⟨tabulates_dict (row := fun i j k => if sign = "+" then AB (i, j, k) + BA (j, i, k)
      else AB (i, j, k) - BA (j, i, k)) h, by simp [GFs.IsDict, hs]⟩
  · simp only [if_neg hs]
    refine ⟨?_, by simp [GFs.IsDict, hs]⟩
    intro i j k
    rw [h i j k]
    congr 1
    have hval := applyWrites_of_forall g
      ((List.finRange As.length).flatMap fun i => (List.finRange Bs.length).map fun j =>
        ((i, j), fun k => if sign = "+" then AB (i, j, k) + BA (j, i, k)
          else AB (i, j, k) - BA (j, i, k))) (i, j)
      (fun k => if sign = "+" then AB (i, j, k) + BA (j, i, k)
          else AB (i, j, k) - BA (j, i, k))
      (by
        refine ⟨((i, j), fun k => if sign = "+" then AB (i, j, k) + BA (j, i, k)
            else AB (i, j, k) - BA (j, i, k)), ?_, rfl⟩
        simp only [List.mem_flatMap, List.mem_map, List.mem_finRange, true_and]
        exact ⟨i, j, rfl⟩)
      (by
        intro w hw hp
        simp only [List.mem_flatMap, List.mem_map, List.mem_finRange, true_and] at hw
        obtain ⟨i', j', rfl⟩ := hw
        simp only [Prod.mk.injEq] at hp
        obtain ⟨rfl, rfl⟩ := hp
        rfl)
    exact (congrFun hval k).symm

omit [DecidableEq κ] in
/-- the two solvers for one start vector -/
theorem lanczos_close {keyB : κ} {vectors : κ → Vec N} {K : ℤ} {t : ℝ} {rep : Rep κ}
    (hH : HM.IsHermitian) (ht : 0 ≤ t) (heta : eta ≠ 0)
    (h : krylov t HM vectors (vectors keyB) K = .ok rep) (omega : ℝ) (a : Vec N) {y : Vec rep.dim}
    (aproj : Vec rep.dim)
    (hy : shifted (zOf omega eta) GE (rep.mat.map fun x => (x : ℂ)) sign *ᵥ y =
      rep.vec keyB) {x : Vec N}
    (hx : shifted (zOf omega eta) GE HM sign *ᵥ x = vectors keyB) (key : κ)
    (ha : vectors key = a) (haproj : rep.vec key = aproj) :
    ((rep.dim : ℤ) < K →
      ‖vdot aproj y - vdot a x‖ ≤ t * norm2 a * norm2 (vectors keyB) / eta ^ 2) ∧
    (rep.dim = N → vdot aproj y = vdot a x) ∧
    (0 < rep.dim → (HM ^ rep.dim) *ᵥ vectors keyB ∈
        Submodule.span ℂ {w | ∃ k < rep.dim, w = (HM ^ k) *ᵥ vectors keyB} →
      vdot aproj y = vdot a x) := by
  by_cases hd : rep.dim = 0
  · -- only for a non-positive `krylov_space_dim`
    have hdim := C57_dimension hH ht h
    refine ⟨?_, ?_, fun h0 => absurd hd (by omega)⟩
    · intro hlt
      by_cases hK : 0 < K
      · have := (hdim.1 hK).1; omega
      · omega
    · intro hN
      have hN0 : N = 0 := by omega
      subst hN0
      have e1 : vdot a x = 0 := by simp [vdot]
      have e2 : vdot aproj y = 0 := by
        unfold vdot
        have : IsEmpty (Fin rep.dim) := by rw [hd]; infer_instance
        simp
      rw [e1, e2]
  obtain ⟨V, ⟨hV, -⟩, -, hvec, hband, hoff, hcol0, R, hMV, hVR, hR, hRt⟩ :=
    C56_lanczos_representation hH ht h
  set T : Matrix (Fin rep.dim) (Fin rep.dim) ℂ := rep.mat.map fun x => (x : ℂ) with hT
  have hb0 := C57_start_vector hH ht h keyB rfl
  have hnorm : t < norm2 (vectors keyB) := (krylov_shape h).1
  -- the start vector lies in the space
  have hVb : V *ᵥ rep.vec keyB = vectors keyB := by
    funext p
    simp only [Matrix.mulVec, dotProduct]
    rw [Finset.sum_eq_single (⟨0, Nat.pos_of_ne_zero hd⟩ : Fin rep.dim)]
    · rw [hb0, if_pos rfl, hcol0 _ rfl, div_mul_cancel₀]
      have : norm2 (vectors keyB) ≠ 0 := by linarith
      exact_mod_cast this
    · intro i _ hi
      rw [hb0, if_neg (fun e => hi (Fin.ext e)), mul_zero]
    · simp
  -- the defect
  have hdefect : shifted (zOf omega eta) GE HM sign *ᵥ (V *ᵥ y) =
      vectors keyB + (if sign = "+" then R *ᵥ y else - (R *ᵥ y)) := by
    have h1 : HM *ᵥ (V *ᵥ y) = V *ᵥ (T *ᵥ y) + R *ᵥ y := by
      rw [Matrix.mulVec_mulVec, hMV, Matrix.add_mulVec, Matrix.mulVec_mulVec]
    have h2 := congrArg (fun w => V *ᵥ w) hy
    simp only [hVb] at h2
    rw [← h2, shifted_mulVec, shifted_mulVec]
    split_ifs
    · rw [h1, Matrix.mulVec_add, Matrix.mulVec_smul]; abel
    · rw [h1, Matrix.mulVec_sub, Matrix.mulVec_smul]; abel
  have hdiff : shifted (zOf omega eta) GE HM sign *ᵥ (V *ᵥ y - x) =
      (if sign = "+" then R *ᵥ y else - (R *ᵥ y)) := by
    rw [Matrix.mulVec_sub, hdefect, hx]; abel
  have hvd : vdot aproj y - vdot a x = vdot a (V *ᵥ y - x) := by
    rw [← haproj, hvec, ha, vdot_conjTranspose, vdot_sub_right]
  have hneg : norm2 (if sign = "+" then R *ᵥ y else - (R *ᵥ y)) = norm2 (R *ᵥ y) := by
    split_ifs
    · rfl
    · have : -(R *ᵥ y) = (-1 : ℂ) • (R *ᵥ y) := by simp
      rw [this, norm2_smul]; simp
  have hbound1 := resolvent_bound hH omega eta GE sign (V *ᵥ y - x)
  rw [hdiff, hneg] at hbound1
  have he : 0 < |eta| := abs_pos.mpr heta
  have hzero : R = 0 → vdot aproj y = vdot a x := by
    intro hR0
    rw [hR0, Matrix.zero_mulVec, norm2_zero] at hbound1
    have h0 : norm2 (V *ᵥ y - x) = 0 := by nlinarith [norm2_nonneg (V *ᵥ y - x)]
    have h1 := norm2_eq_zero h0
    rw [h1, vdot_zero_right] at hvd
    exact sub_eq_zero.mp hvd
  refine ⟨?_, ?_, fun _ hinv => hzero (defect_zero (Nat.pos_of_ne_zero hd) (by linarith) hV hMV hVR
    hR hcol0 hband (fun i j hij => lt_of_le_of_lt ht (hoff i j hij)) hinv)⟩
  · intro hlt
    have hRy : norm2 (R *ᵥ y) ≤ t * norm2 y := by
      have hlast : R *ᵥ y = y ⟨rep.dim - 1, by omega⟩ • fun p => R p ⟨rep.dim - 1, by omega⟩ := by
        funext p
        simp only [Matrix.mulVec, dotProduct, Pi.smul_apply, smul_eq_mul]
        rw [Finset.sum_eq_single (⟨rep.dim - 1, by omega⟩ : Fin rep.dim)]
        · ring
        · intro i _ hi
          rw [hR i (by
            have h1 := i.2
            have h2 : (i : ℕ) ≠ rep.dim - 1 := fun e => hi (Fin.ext e)
            omega), zero_mul]
        · simp
      rw [hlast, norm2_smul]
      have h1 := hRt hlt ⟨rep.dim - 1, by omega⟩
      have h2 : ‖y ⟨rep.dim - 1, by omega⟩‖ ≤ norm2 y := by
        rw [norm2_eq_norm]
        exact PiLp.norm_apply_le (WithLp.toLp 2 y) _
      calc ‖y ⟨rep.dim - 1, by omega⟩‖ * norm2 (fun p => R p ⟨rep.dim - 1, by omega⟩)
          ≤ norm2 y * t := mul_le_mul h2 h1 (norm2_nonneg _) (norm2_nonneg _)
        _ = t * norm2 y := mul_comm _ _
    have hy' := resolvent_bound (real_symm_hermitian hband.symm) omega eta GE sign y
    rw [hy] at hy'
    have hbn : norm2 (rep.vec keyB) = norm2 (vectors keyB) := by
      rw [← norm2_isometry hV (rep.vec keyB), hVb]
    rw [hbn] at hy'
    have he : 0 < |eta| := abs_pos.mpr heta
    rw [hvd]
    refine le_trans (norm_vdot_le _ _) ?_
    rw [le_div_iff₀ (by positivity), ← sq_abs]
    have h3 : |eta| * (|eta| * norm2 (V *ᵥ y - x)) ≤ t * norm2 (vectors keyB) := by
      calc |eta| * (|eta| * norm2 (V *ᵥ y - x)) ≤ |eta| * (t * norm2 y) :=
            mul_le_mul_of_nonneg_left (le_trans hbound1 hRy) he.le
        _ = t * (|eta| * norm2 y) := by ring
        _ ≤ _ := mul_le_mul_of_nonneg_left hy' ht
    calc norm2 a * norm2 (V *ᵥ y - x) * |eta| ^ 2 =
          norm2 a * (|eta| * (|eta| * norm2 (V *ᵥ y - x))) := by ring
      _ ≤ norm2 a * (t * norm2 (vectors keyB)) :=
          mul_le_mul_of_nonneg_left h3 (norm2_nonneg _)
      _ = _ := by ring
  · intro hN
    -- a square isometry is unitary, so the defect vanishes
    have hR0 : R = 0 := by
      have hVV : V * Vᴴ = 1 := by
        have hcard : Fintype.card (Fin rep.dim) = Fintype.card (Fin N) := by simp [hN]
        exact (Matrix.mul_eq_one_comm_of_card_eq _ _ _ hcard).mp hV
      calc R = V * Vᴴ * R := by rw [hVV, Matrix.one_mul]
        _ = 0 := by rw [Matrix.mul_assoc, hVR, Matrix.mul_zero]
    exact hzero hR0

/-- the dicts of `MultiKrylov` -/
theorem toDict_get {keys : List κ} {vectors : κ → Vec N} {K : ℤ} {t : ℝ} {reps : List (Rep κ)}
    (h : multiKrylov t HM keys vectors K = .ok reps) {B : κ} (hB : B ∈ keys) :
    ∃ rep, krylov t HM vectors (vectors B) K = .ok rep ∧ toDict keys reps B =
      some ⟨rep.dim, rep.mat, fun key => if key ∈ keys then some (rep.vec key) else none⟩ := by
  have hf := (C57_multi (t := t) (M := HM) (vectors := vectors) (K := K)).1 reps |>.mp h
  have hlen := forall₂_length hf
  have hz : ∀ p ∈ keys.zip reps, krylov t HM vectors (vectors p.1) K = .ok p.2 := by
    intro p hp
    obtain ⟨i, hi, rfl⟩ := List.mem_iff_getElem.mp hp
    rw [List.getElem_zip]
    exact forall₂_getElem hf i (by simp at hi; omega)
  obtain ⟨i, hi, rfl⟩ := List.mem_iff_getElem.mp hB
  have hrep := forall₂_getElem hf i hi
  refine ⟨reps[i], hrep, ?_⟩
  unfold toDict
  apply applyWrites_of_forall
  · refine ⟨_, List.mem_map.mpr ⟨(keys[i], reps[i]), ?_, rfl⟩, rfl⟩
    rw [List.mem_iff_getElem]
    exact ⟨i, by simp; omega, by rw [List.getElem_zip]⟩
  · intro w hw hp
    obtain ⟨p, hpm, rfl⟩ := List.mem_map.mp hw
    have h1 := hz p hpm
    dsimp only at hp ⊢
    rw [hp, hrep] at h1
    rw [← Except.ok.inj h1]

end Verif.GF
