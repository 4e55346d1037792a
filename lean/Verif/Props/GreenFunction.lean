import Verif.Proofs.LanczosGreen
/-!
# C58, C59, C60: the Green-function solvers
-/

namespace Verif.GF

open Matrix Verif.Lanczos

variable {N : ℕ} {κ : Type} [DecidableEq κ] {dagger : κ → κ} {omegas : List ℝ} {As Bs : List κ}
  {GE eta : ℝ} {HM : Matrix (Fin N) (Fin N) ℂ} {excited : κ → Option (Vec N)}
  {sign struct : String} {proj : κ → Option (PRep κ)}

/-! ## C60 -/

omit [DecidableEq κ] in
/-- C60 for the exact solver.  For Hermitian `HM`, real `GE` and `omega` and `eta ≠ 0`, and for both
signs, the only way to fail is a missing excited state (KeyError); otherwise the value is
`<A† GS | x>` for the one and only solution `x` of the linear system. -/
theorem C60_exact (hH : HM.IsHermitian) (heta : eta ≠ 0) (omega : ℝ) (A B : κ) :
    (∀ b a, excited B = some b → excited (dagger A) = some a →
      ∃! x, (shifted (zOf omega eta) GE HM sign *ᵥ x = b ∧
        exactSingle dagger omega A B GE HM excited eta sign = .ok (vdot a x))) ∧
    ∀ e, exactSingle dagger omega A B GE HM excited eta sign = .error e →
      e = .keyError ∧ (excited B = none ∨ excited (dagger A) = none) := by
  have hu := shifted_isUnit hH (omega := omega) (GE := GE) heta sign
  constructor
  · intro b a hb ha
    obtain ⟨x, hx⟩ := solve_exists hu b
    refine ⟨x, ⟨(solve_ok_iff.mp hx).2, exactSingle_ok_iff.mpr ⟨b, a, x, hb, ha, hx, rfl⟩⟩, ?_⟩
    rintro y ⟨hy, -⟩
    have := solve_ok_iff.mpr ⟨hu, hy⟩
    rw [hx] at this
    exact (Except.ok.inj this).symm
  · intro e he
    unfold exactSingle at he
    cases hb : excited B with
    | none =>
      simp only [getItem, hb, raise, bind, Except.bind] at he
      exact ⟨(Except.error.inj he).symm, .inl rfl⟩
    | some b =>
      cases ha : excited (dagger A) with
      | none =>
        simp only [getItem, hb, ha, raise, bind, Except.bind] at he
        exact ⟨(Except.error.inj he).symm, .inr rfl⟩
      | some a =>
        obtain ⟨x, hx⟩ := solve_exists hu b
        simp only [getItem, hb, ha, bind, Except.bind, hx, pure, Except.pure] at he
        cases he

omit [DecidableEq κ] in
/-- C60 for the Lanczos solver: the same for the projected matrices, which are real symmetric
(C56), of positive dimension. -/
theorem C60_lanczos (heta : eta ≠ 0) (omega : ℝ) (A B : κ)
    (hsym : ∀ r, proj B = some r → r.matᵀ = r.mat ∧ 0 < r.dim) :
    (∀ r temp a, proj B = some r → r.vec B = some temp → r.vec (dagger A) = some a →
      ∃! x, (shifted (zOf omega eta) GE r.cmat sign *ᵥ x =
          (fun i : Fin r.dim => if (i : ℕ) = 0 then temp i else 0) ∧
        lanczosSingle dagger omega A B GE proj eta sign = .ok (vdot a x))) ∧
    ∀ e, lanczosSingle dagger omega A B GE proj eta sign = .error e →
      e = .keyError ∧ (proj B = none ∨ ∃ r, proj B = some r ∧
        (r.vec B = none ∨ r.vec (dagger A) = none)) := by
  have hfirst : ∀ {d : ℕ} (hd : 0 < d) (temp : Fin d → ℂ),
      firstOnly temp = .ok (fun i => if (i : ℕ) = 0 then temp i else 0) := by
    intro d hd temp
    unfold firstOnly
    rw [dif_pos hd]
    congr 1
    funext i
    by_cases hi : (i : ℕ) = 0
    · have : i = ⟨0, hd⟩ := Fin.ext hi
      subst this
      simp
    · rw [if_neg hi, Function.update_of_ne (fun e => hi (by rw [e]))]
      rfl
  constructor
  · intro r temp a hr htemp ha
    obtain ⟨hs, hd⟩ := hsym r hr
    have hu := shifted_isUnit (real_symm_hermitian hs) (omega := omega) (GE := GE) heta sign
    obtain ⟨x, hx⟩ := solve_exists hu (fun i : Fin r.dim => if (i : ℕ) = 0 then temp i else 0)
    refine ⟨x, ⟨(solve_ok_iff.mp hx).2,
      lanczosSingle_ok_iff.mpr ⟨r, temp, _, a, x, hr, htemp, hfirst hd temp, ha, hx, rfl⟩⟩, ?_⟩
    rintro y ⟨hy, -⟩
    have := solve_ok_iff.mpr ⟨hu, hy⟩
    rw [hx] at this
    exact (Except.ok.inj this).symm
  · intro e he
    unfold lanczosSingle at he
    cases hr : proj B with
    | none =>
      simp only [getItem, hr, raise, bind, Except.bind] at he
      exact ⟨(Except.error.inj he).symm, .inl rfl⟩
    | some r =>
      obtain ⟨hs, hd⟩ := hsym r hr
      cases htemp : r.vec B with
      | none =>
        simp only [getItem, hr, htemp, raise, bind, Except.bind] at he
        exact ⟨(Except.error.inj he).symm, .inr ⟨r, rfl, .inl htemp⟩⟩
      | some temp =>
        cases ha : r.vec (dagger A) with
        | none =>
          simp only [getItem, hr, htemp, ha, raise, bind, Except.bind, hfirst hd] at he
          exact ⟨(Except.error.inj he).symm, .inr ⟨r, rfl, .inr ha⟩⟩
        | some a =>
          have hu := shifted_isUnit (real_symm_hermitian hs) (omega := omega) (GE := GE) heta sign
          obtain ⟨x, hx⟩ := solve_exists hu (fun i : Fin r.dim => if (i : ℕ) = 0 then temp i else 0)
          have hx' : solve (shifted (zOf omega eta) GE r.cmat sign)
            (fun i : Fin r.dim => if (i : ℕ) = 0 then temp i else 0) = .ok x := hx
          simp only [getItem, hr, htemp, ha, bind, Except.bind, hfirst hd, hx', pure,
            Except.pure] at he
          cases he

/-- Non-vacuity of C60, and the role of `eta`: for the 1x1 Hamiltonian 0 the Green function exists
at `omega = 0`, `eta = 1`, but not at `eta = 0` (LinAlgError). -/
example : ((0 : Matrix (Fin 1) (Fin 1) ℂ).IsHermitian) ∧
    (∃ v, exactSingle (id : Unit → Unit) 0 () () 0 (0 : Matrix (Fin 1) (Fin 1) ℂ)
      (fun _ => some ![1]) 1 "+" = .ok v) ∧
    exactSingle (id : Unit → Unit) 0 () () 0 (0 : Matrix (Fin 1) (Fin 1) ℂ)
      (fun _ => some ![1]) 0 "+" = .error .linAlgError := by
  have hH : (0 : Matrix (Fin 1) (Fin 1) ℂ).IsHermitian := by ext i j; simp [conjTranspose_apply]
  refine ⟨hH, ?_, ?_⟩
  · obtain ⟨x, ⟨-, hx⟩, -⟩ := (C60_exact (dagger := (id : Unit → Unit)) (GE := 0) (sign := "+")
      (excited := fun _ => some ![1]) hH one_ne_zero 0 () ()).1 _ _ rfl rfl
    exact ⟨_, hx⟩
  · have : shifted (zOf 0 0) 0 (0 : Matrix (Fin 1) (Fin 1) ℂ) "+" = 0 := by
      ext i j; simp [shifted, zOf]
    simp [exactSingle, getItem, this, solve, bind, Except.bind, raise]

/-! ## C59 -/

omit [DecidableEq κ] in
/-- C59.  The retarded Green function of the single-frequency solvers is the sum (sign "+") or
difference of the greater and lesser parts, for the exact and for the Lanczos solver; each raises
exactly if one of the two parts does. -/
theorem C59_rgf_single (omega : ℝ) (A B : κ) (v : ℂ) :
    (rgfExactSingle dagger omega A B GE HM excited eta sign = .ok v ↔
      ∃ ab ba, exactSingle dagger omega A B GE HM excited eta "-" = .ok ab ∧
        exactSingle dagger omega B A GE HM excited eta "+" = .ok ba ∧
        v = if sign = "+" then ab + ba else ab - ba) ∧
    (rgfLanczosSingle dagger omega A B GE proj eta sign = .ok v ↔
      ∃ ab ba, lanczosSingle dagger omega A B GE proj eta "-" = .ok ab ∧
        lanczosSingle dagger omega B A GE proj eta "+" = .ok ba ∧
        v = if sign = "+" then ab + ba else ab - ba) := by
  refine ⟨rgfExactSingle_ok_iff, ?_⟩
  unfold rgfLanczosSingle
  simp only [bind_ok_iff, pure, Except.pure, Except.ok.injEq]
  constructor
  · rintro ⟨ab, h1, ba, h2, rfl⟩; exact ⟨ab, ba, h1, h2, rfl⟩
  · rintro ⟨ab, ba, h1, h2, rfl⟩; exact ⟨ab, h1, ba, h2, rfl⟩

/-- C59 for `GFSolverExactMultiple`: whatever the previous content of the result array, the
returned table agrees with the single-frequency solver, with the requested structure; and the call
returns whenever all the single-frequency calls do. -/
theorem C59_exact_multiple (g : Fin As.length × Fin Bs.length × Fin omegas.length → ℂ) :
    (∀ r, exactMultiple dagger omegas As Bs GE HM excited eta sign struct g = .ok r →
      Tabulates (fun omega A B => exactSingle dagger omega A B GE HM excited eta sign)
        omegas As Bs r ∧ (r.IsDict ↔ struct = "dict")) ∧
    (As ≠ [] → (∀ omega ∈ omegas, ∀ A ∈ As, ∀ B ∈ Bs,
        ∃ v, exactSingle dagger omega A B GE HM excited eta sign = .ok v) →
      ∃ r, exactMultiple dagger omegas As Bs GE HM excited eta sign struct g = .ok r) := by
  unfold exactMultiple
  constructor
  · intro r hr
    obtain ⟨G, hG, hr⟩ := bind_ok_iff.mp hr
    obtain rfl := Except.ok.inj hr
    exact structured_tabulates fun i j k => exactArray_single hG i j k
  · intro hA h
    obtain ⟨G, hG⟩ := exactArray_ok hA g fun i j k =>
      h _ (List.get_mem omegas k) _ (List.get_mem As i) _ (List.get_mem Bs j)
    exact ⟨_, bind_ok_iff.mpr ⟨G, hG, rfl⟩⟩

/-- C59 for `GFSolverLanczosMultiple`. -/
theorem C59_lanczos_multiple (g : Fin As.length × Fin Bs.length × Fin omegas.length → ℂ) :
    (∀ r, lanczosMultiple dagger omegas As Bs GE proj eta sign struct g = .ok r →
      Tabulates (fun omega A B => lanczosSingle dagger omega A B GE proj eta sign)
        omegas As Bs r ∧ (r.IsDict ↔ struct = "dict")) ∧
    (As ≠ [] → omegas ≠ [] → (∀ omega ∈ omegas, ∀ A ∈ As, ∀ B ∈ Bs,
        ∃ v, lanczosSingle dagger omega A B GE proj eta sign = .ok v) →
      ∃ r, lanczosMultiple dagger omegas As Bs GE proj eta sign struct g = .ok r) := by
  unfold lanczosMultiple
  constructor
  · intro r hr
    obtain ⟨G, hG, hr⟩ := bind_ok_iff.mp hr
    obtain rfl := Except.ok.inj hr
    exact structured_tabulates fun i j k => lanczosArray_single hG i j k
  · intro hA hO h
    obtain ⟨G, hG⟩ := lanczosArray_ok hA hO g fun i j k =>
      h _ (List.get_mem omegas k) _ (List.get_mem As i) _ (List.get_mem Bs j)
    exact ⟨_, bind_ok_iff.mpr ⟨G, hG, rfl⟩⟩

/-- C59 for `RGFSolverExactMultiple`. -/
theorem C59_rgf_exact_multiple (g1 : Fin As.length × Fin Bs.length × Fin omegas.length → ℂ)
    (g2 : Fin Bs.length × Fin As.length × Fin omegas.length → ℂ)
    (g3 : Fin As.length × Fin Bs.length → Fin omegas.length → ℂ) :
    (∀ r, rgfExactMultiple dagger omegas As Bs GE HM excited eta sign struct g1 g2 g3 = .ok r →
      Tabulates (fun omega A B => rgfExactSingle dagger omega A B GE HM excited eta sign)
        omegas As Bs r ∧ (r.IsDict ↔ struct = "dict")) ∧
    (As ≠ [] → Bs ≠ [] → (∀ omega ∈ omegas, ∀ A ∈ As, ∀ B ∈ Bs,
        ∃ v, rgfExactSingle dagger omega A B GE HM excited eta sign = .ok v) →
      ∃ r, rgfExactMultiple dagger omegas As Bs GE HM excited eta sign struct g1 g2 g3 =
        .ok r) := by
  unfold rgfExactMultiple
  constructor
  · intro r hr
    obtain ⟨AB, hAB, hr⟩ := bind_ok_iff.mp hr
    obtain ⟨BA, hBA, hr⟩ := bind_ok_iff.mp hr
    obtain rfl := Except.ok.inj hr
    refine combined_tabulates g3 fun i j k => ?_
    exact rgfExactSingle_ok_iff.mpr ⟨_, _, exactArray_single hAB i j k,
      exactArray_single hBA j i k, rfl⟩
  · intro hA hB h
    have h' : ∀ i j k, _ := fun i j k =>
      h _ (List.get_mem omegas k) _ (List.get_mem As i) _ (List.get_mem Bs j)
    simp only [rgfExactSingle_ok_iff] at h'
    obtain ⟨AB, hAB⟩ := exactArray_ok hA g1 fun i j k => by
      obtain ⟨_, ab, ba, h1, h2, _⟩ := h' i j k
      exact ⟨ab, h1⟩
    obtain ⟨BA, hBA⟩ := exactArray_ok hB g2 fun j i k => by
      obtain ⟨_, ab, ba, h1, h2, _⟩ := h' i j k
      exact ⟨ba, h2⟩
    exact ⟨_, bind_ok_iff.mpr ⟨AB, hAB, bind_ok_iff.mpr ⟨BA, hBA, rfl⟩⟩⟩

/-- C59 for `RGFSolverLanczosMultiple`. -/
theorem C59_rgf_lanczos_multiple (g1 : Fin As.length × Fin Bs.length × Fin omegas.length → ℂ)
    (g2 : Fin Bs.length × Fin As.length × Fin omegas.length → ℂ)
    (g3 : Fin As.length × Fin Bs.length → Fin omegas.length → ℂ) :
    (∀ r, rgfLanczosMultiple dagger omegas As Bs GE proj eta sign struct g1 g2 g3 = .ok r →
      Tabulates (fun omega A B => rgfLanczosSingle dagger omega A B GE proj eta sign)
        omegas As Bs r ∧ (r.IsDict ↔ struct = "dict")) ∧
    (As ≠ [] → Bs ≠ [] → omegas ≠ [] → (∀ omega ∈ omegas, ∀ A ∈ As, ∀ B ∈ Bs,
        ∃ v, rgfLanczosSingle dagger omega A B GE proj eta sign = .ok v) →
      ∃ r, rgfLanczosMultiple dagger omegas As Bs GE proj eta sign struct g1 g2 g3 =
        .ok r) := by
  have single_iff : ∀ omega A B v, _ := fun omega A B v =>
    (C59_rgf_single (N := 0) (dagger := dagger) (GE := GE) (eta := eta) (HM := 0)
      (excited := fun _ => none) (sign := sign) (proj := proj) omega A B v).2
  unfold rgfLanczosMultiple
  constructor
  · intro r hr
    obtain ⟨AB, hAB, hr⟩ := bind_ok_iff.mp hr
    obtain ⟨BA, hBA, hr⟩ := bind_ok_iff.mp hr
    obtain rfl := Except.ok.inj hr
    refine combined_tabulates g3 fun i j k => ?_
    exact (single_iff _ _ _ _).mpr ⟨_, _, lanczosArray_single hAB i j k,
      lanczosArray_single hBA j i k, rfl⟩
  · intro hA hB hO h
    have h' : ∀ i j k, _ := fun i j k =>
      h _ (List.get_mem omegas k) _ (List.get_mem As i) _ (List.get_mem Bs j)
    simp only [single_iff] at h'
    obtain ⟨AB, hAB⟩ := lanczosArray_ok hA hO g1 fun i j k => by
      obtain ⟨_, ab, ba, h1, h2, _⟩ := h' i j k
      exact ⟨ab, h1⟩
    obtain ⟨BA, hBA⟩ := lanczosArray_ok hB hO g2 fun j i k => by
      obtain ⟨_, ab, ba, h1, h2, _⟩ := h' i j k
      exact ⟨ba, h2⟩
    exact ⟨_, bind_ok_iff.mpr ⟨AB, hAB, bind_ok_iff.mpr ⟨BA, hBA, rfl⟩⟩⟩

/-- Non-vacuity of C59: two operators, two frequencies, all solvers return. -/
example (g : Fin 2 × Fin 2 × Fin 2 → ℂ) (g3 : Fin 2 × Fin 2 → Fin 2 → ℂ) :
    ∃ r, rgfExactMultiple (fun b : Bool => !b) [0, 1] [true, false] [true, false] 0
      (!![0, 1; 1, 0] : Matrix (Fin 2) (Fin 2) ℂ)
      (fun b => some (if b then ![1, 0] else ![0, 1])) 1 "+" "dict" g g g3 = .ok r := by
  have hH : (!![0, 1; 1, 0] : Matrix (Fin 2) (Fin 2) ℂ).IsHermitian := by
    ext i j
    fin_cases i <;> fin_cases j <;> simp [conjTranspose_apply]
  refine (C59_rgf_exact_multiple (omegas := [0, 1]) (As := [true, false])
    (Bs := [true, false]) g g g3).2 (by simp) (by simp) fun omega _ A _ B _ => ?_
  have h1 := (C60_exact (dagger := fun b : Bool => !b) (GE := 0) (sign := "-")
    (excited := fun b => some (if b then ![1, 0] else ![0, 1])) hH one_ne_zero omega A B).1
    _ _ rfl rfl
  have h2 := (C60_exact (dagger := fun b : Bool => !b) (GE := 0) (sign := "+")
    (excited := fun b => some (if b then ![1, 0] else ![0, 1])) hH one_ne_zero omega B A).1
    _ _ rfl rfl
  obtain ⟨x1, ⟨-, hx1⟩, -⟩ := h1
  obtain ⟨x2, ⟨-, hx2⟩, -⟩ := h2
  exact ⟨_, rgfExactSingle_ok_iff.mpr ⟨_, _, hx1, hx2, rfl⟩⟩

/-! ## C58 -/

/-- C58.  `GFSolverLanczosSingle` applied to the output of `MultiKrylov` against
`GFSolverExactSingle` applied to the same vectors, for all frequencies, both signs and `eta ≠ 0`.
Both return; with `d` the dimension of the Krylov space of `B`:
* if that space is invariant under the Hamiltonian (the residual vanishes exactly) the two values
  are equal, in particular if `d = N`;
* if the iteration stopped because the residual was below the threshold `t`, or if
  `krylov_space_dim ≥ N`, they differ by at most `t ‖A† GS‖ ‖B GS‖ / eta²`; so for `t = 0` they are
  equal. -/
theorem C58_lanczos_equals_exact (hH : HM.IsHermitian) {t : ℝ} (ht : 0 ≤ t) (heta : eta ≠ 0)
    {K : ℤ} (hK : 0 < K) {keys : List κ} {vectors : κ → Vec N} {reps : List (Rep κ)}
    (h : multiKrylov t HM keys vectors K = .ok reps) (omega : ℝ) {A B : κ} (hB : B ∈ keys)
    (hA : dagger A ∈ keys) :
    ∃ rep gL gE, krylov t HM vectors (vectors B) K = .ok rep ∧
      lanczosSingle dagger omega A B GE (toDict keys reps) eta sign = .ok gL ∧
      exactSingle dagger omega A B GE HM
        (fun key => if key ∈ keys then some (vectors key) else none) eta sign = .ok gE ∧
      ((HM ^ rep.dim) *ᵥ vectors B ∈
          Submodule.span ℂ {w | ∃ k < rep.dim, w = (HM ^ k) *ᵥ vectors B} → gL = gE) ∧
      (rep.dim = N → gL = gE) ∧
      ((rep.dim : ℤ) < K ∨ (N : ℤ) ≤ K →
        ‖gL - gE‖ ≤ t * norm2 (vectors (dagger A)) * norm2 (vectors B) / eta ^ 2) ∧
      (t = 0 → (N : ℤ) ≤ K → gL = gE) := by
  obtain ⟨rep, hrep, hdict⟩ := toDict_get h hB
  have hdim := C57_dimension hH ht hrep
  obtain ⟨V, -, -, -, hsym, -⟩ := C56_lanczos_representation hH ht hrep
  obtain ⟨y, ⟨hy, hL⟩, -⟩ := (C60_lanczos (dagger := dagger) (GE := GE) (sign := sign)
    (proj := toDict keys reps) heta omega A B (by
      intro r hr
      rw [hdict] at hr
      obtain rfl := Option.some.inj hr
      exact ⟨hsym.symm, (hdim.1 hK).1⟩)).1 _ (rep.vec B) (rep.vec (dagger A)) hdict
        (by simp [hB]) (by simp [hA])
  obtain ⟨x, ⟨hx, hE⟩, -⟩ := (C60_exact (dagger := dagger) (GE := GE) (sign := sign)
    (excited := fun key => if key ∈ keys then some (vectors key) else none) hH heta omega A B).1
    (vectors B) (vectors (dagger A)) (by simp [hB]) (by simp [hA])
  have hy' : shifted (zOf omega eta) GE (rep.mat.map fun x => (x : ℂ)) sign *ᵥ y =
      rep.vec B := by
    have h1 := C57_start_vector hH ht hrep B rfl
    refine Eq.trans hy ?_
    funext i
    split_ifs with hi
    · rfl
    · rw [h1, if_neg hi]
  obtain ⟨h1, h2, h3⟩ := lanczos_close hH ht heta hrep omega (vectors (dagger A))
    (rep.vec (dagger A)) hy' hx (dagger A) rfl rfl
  have hnn : 0 ≤ t * norm2 (vectors (dagger A)) * norm2 (vectors B) / eta ^ 2 :=
    div_nonneg (mul_nonneg (mul_nonneg ht (norm2_nonneg _)) (norm2_nonneg _)) (sq_nonneg _)
  have hb : (rep.dim : ℤ) < K ∨ (N : ℤ) ≤ K →
      ‖vdot (rep.vec (dagger A)) y - vdot (vectors (dagger A)) x‖ ≤
        t * norm2 (vectors (dagger A)) * norm2 (vectors B) / eta ^ 2 := by
    intro hor
    by_cases hlt : (rep.dim : ℤ) < K
    · exact h1 hlt
    · have hN : rep.dim = N := by
        have := hdim.2.2
        rcases hor with h | h <;> omega
      rw [h2 hN, sub_self, norm_zero]
      exact hnn
  refine ⟨rep, _, _, hrep, hL, hE, h3 (hdim.1 hK).1, h2, hb, ?_⟩
  intro ht0 hN
  have h4 := hb (.inr hN)
  rw [ht0, zero_mul, zero_mul, zero_div] at h4
  exact sub_eq_zero.mp (norm_le_zero_iff.mp h4)

/-- Non-vacuity of C58: the exchange matrix, both unit vectors as excited states, threshold 0,
`krylov_space_dim = 200`: `MultiKrylov` returns and the two Green functions are equal. -/
example (omega : ℝ) : ∃ reps g, multiKrylov 0 (!![0, 1; 1, 0] : Matrix (Fin 2) (Fin 2) ℂ)
      [true, false] (fun b => if b then ![1, 0] else ![0, 1]) 200 = .ok reps ∧
    lanczosSingle (fun b : Bool => !b) omega true true 0 (toDict [true, false] reps) 1 "+" =
      .ok g := by
  have hH : (!![0, 1; 1, 0] : Matrix (Fin 2) (Fin 2) ℂ).IsHermitian := by
    ext i j
    fin_cases i <;> fin_cases j <;> simp [conjTranspose_apply]
  have hm := C57_multi (t := 0) (M := (!![0, 1; 1, 0] : Matrix (Fin 2) (Fin 2) ℂ))
    (keys := [true, false]) (vectors := fun b : Bool => if b then ![1, 0] else ![0, 1]) (K := 200)
  rcases except_ok_or_error (multiKrylov 0 (!![0, 1; 1, 0] : Matrix (Fin 2) (Fin 2) ℂ)
    [true, false] (fun b : Bool => if b then ![1, 0] else ![0, 1]) 200) with ⟨reps, hr⟩ | ⟨e, he⟩
  · obtain ⟨_, g, _, _, hg, _⟩ := C58_lanczos_equals_exact (dagger := fun b : Bool => !b) (GE := 0)
      (sign := "+") hH (le_refl 0) one_ne_zero (by norm_num) hr omega (A := true) (B := true)
      (by simp) (by simp)
    exact ⟨reps, g, hr, hg⟩
  · exfalso
    obtain ⟨key, -, hk⟩ := hm.2.1.mp ⟨e, he⟩
    cases key <;> simp [norm2] at hk <;> linarith

end Verif.GF
