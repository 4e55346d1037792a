import Verif.Props.GreenFunction
import Mathlib.Analysis.Matrix.Spectrum
import Mathlib.Analysis.SpecialFunctions.ImproperIntegrals
/-!
# C75: the spectral content of the Green functions
-/

namespace Verif.GF

open Matrix Verif.Lanczos

variable {N : ℕ} {κ : Type} [DecidableEq κ] {dagger : κ → κ}
  {GE eta : ℝ} {HM : Matrix (Fin N) (Fin N) ℂ} {excited : κ → Option (Vec N)} {sign : String}

/-- The columns of `V` are an orthonormal basis of eigenvectors of `HM`, with eigenvalues `E`. -/
structure IsEigenbasis (HM V : Matrix (Fin N) (Fin N) ℂ) (E : Fin N → ℝ) : Prop where
  orthonormal : Vᴴ * V = 1
  eigen : ∀ n, HM *ᵥ (fun r => V r n) = (E n : ℂ) • (fun r => V r n)

/-- The energy denominator of an eigenstate with energy `E`: `z + (E - GE)` or `z - (E - GE)`. -/
def denominator (z : ℂ) (GE E : ℝ) (sign : String) : ℂ :=
  if sign = "+" then z + ((E - GE : ℝ) : ℂ) else z - ((E - GE : ℝ) : ℂ)

theorem denominator_im (omega eta GE E : ℝ) (sign : String) :
    (denominator (zOf omega eta) GE E sign).im = eta := by
  unfold denominator zOf
  split_ifs <;> simp

theorem lehmann_core {V : Matrix (Fin N) (Fin N) ℂ} {E : Fin N → ℝ} (hE : IsEigenbasis HM V E)
    (omega : ℝ) (heta : eta ≠ 0) (a b x : Vec N) (hx : shifted (zOf omega eta) GE HM sign *ᵥ x = b) :
    vdot a x = ∑ n, vdot a (fun r => V r n) * vdot (fun r => V r n) b /
      denominator (zOf omega eta) GE (E n) sign := by
  have hVV : V * Vᴴ = 1 := mul_eq_one_comm.mp hE.orthonormal
  set z := zOf omega eta with hz
  have hden : ∀ n, denominator z GE (E n) sign ≠ 0 := by
    intro n h0
    apply heta
    rw [← denominator_im omega eta GE (E n) sign, ← hz, h0]
    rfl
  have hcol : ∀ n, shifted z GE HM sign *ᵥ (fun r => V r n) =
      denominator z GE (E n) sign • (fun r => V r n) := by
    intro n
    rw [shifted_mulVec, hE.eigen n]
    unfold denominator
    split_ifs
    · rw [← add_smul]; congr 1; push_cast; ring
    · rw [← sub_smul]; congr 1; push_cast; ring
  -- overlaps of x with the eigenvectors
  have hexp : ∀ w : Vec N, w = ∑ n, vdot (fun r => V r n) w • (fun r => V r n) := by
    intro w
    have h1 : w = V *ᵥ (Vᴴ *ᵥ w) := by rw [mulVec_mulVec, hVV, one_mulVec]
    conv_lhs => rw [h1]
    funext r
    rw [Finset.sum_apply]
    simp only [mulVec, dotProduct]
    refine Finset.sum_congr rfl fun n _ => ?_
    rw [Pi.smul_apply, smul_eq_mul, mul_comm]
    rfl
  have hb : ∀ n, vdot (fun r => V r n) b = denominator z GE (E n) sign * vdot (fun r => V r n) x := by
    intro n
    have h1 : b = ∑ m, (vdot (fun r => V r m) x * denominator z GE (E m) sign) • (fun r => V r m) := by
      rw [← hx]
      conv_lhs => rw [hexp x]
      rw [mulVec_sum]
      refine Finset.sum_congr rfl fun m _ => ?_
      rw [mulVec_smul, hcol, smul_smul]
    rw [h1, vdot_sum_right]
    rw [Finset.sum_eq_single n]
    · rw [vdot_smul_right]
      have : vdot (fun r => V r n) (fun r => V r n) = (Vᴴ * V) n n := rfl
      rw [this, hE.orthonormal, one_apply_eq]
      ring
    · intro m _ hm
      rw [vdot_smul_right]
      have : vdot (fun r => V r n) (fun r => V r m) = (Vᴴ * V) n m := rfl
      rw [this, hE.orthonormal, one_apply_ne (Ne.symm hm), mul_zero]
    · simp
  conv_lhs => rw [hexp x]
  rw [vdot_sum_right]
  refine Finset.sum_congr rfl fun n _ => ?_
  rw [vdot_smul_right, hb n]
  field_simp [hden n]

theorem eigenbasis_exists (hH : HM.IsHermitian) : ∃ V E, IsEigenbasis HM V E := by
  refine ⟨(hH.eigenvectorUnitary : Matrix (Fin N) (Fin N) ℂ), hH.eigenvalues, ?_, ?_⟩
  · exact Matrix.mem_unitaryGroup_iff'.mp hH.eigenvectorUnitary.2
  · intro n
    have h := hH.mulVec_eigenvectorBasis n
    have e : (fun r => (hH.eigenvectorUnitary : Matrix (Fin N) (Fin N) ℂ) r n) =
        (hH.eigenvectorBasis n).ofLp := by
      funext r
      exact hH.eigenvectorUnitary_apply r n
    rw [e, h]
    rfl

omit [DecidableEq κ] in
/-- **C75** (Lehmann representation).  With any orthonormal eigenbasis of the Hamiltonian,
`GFSolverExactSingle` returns the sum over eigenstates of `<A† GS|n><n|B GS>` over the energy
denominators. -/
theorem C75_lehmann {V : Matrix (Fin N) (Fin N) ℂ} {E : Fin N → ℝ} (hE : IsEigenbasis HM V E)
    (heta : eta ≠ 0) (omega : ℝ) (A B : κ) (a b : Vec N) (hb : excited B = some b)
    (ha : excited (dagger A) = some a) (g : ℂ)
    (hg : exactSingle dagger omega A B GE HM excited eta sign = .ok g) :
    g = ∑ n, vdot a (fun r => V r n) * vdot (fun r => V r n) b /
      denominator (zOf omega eta) GE (E n) sign := by
  obtain ⟨b', a', x, hb', ha', hx, rfl⟩ := exactSingle_ok_iff.mp hg
  rw [hb] at hb'; cases hb'
  rw [ha] at ha'; cases ha'
  exact lehmann_core hE omega heta a b x (solve_ok_iff.mp hx).2

/-- **C75** (every Hermitian Hamiltonian has such a basis). -/
theorem C75_eigenbasis_exists (hH : HM.IsHermitian) : ∃ V E, IsEigenbasis HM V E := eigenbasis_exists hH

theorem diagonal_core (hH : HM.IsHermitian) (omega : ℝ) (b x : Vec N)
    (hx : shifted (zOf omega eta) GE HM sign *ᵥ x = b) :
    (vdot b x).im = -(eta * norm2 x ^ 2) := by
  have := shifted_im hH omega eta GE sign x
  rw [hx] at this
  rw [← vdot_conj, Complex.star_def, Complex.conj_im, this]

theorem bound_core (hH : HM.IsHermitian) (omega : ℝ) (heta : 0 < eta) (a b x : Vec N)
    (hx : shifted (zOf omega eta) GE HM sign *ᵥ x = b) : ‖vdot a x‖ ≤ norm2 a * norm2 b / eta := by
  have h1 := resolvent_bound hH omega eta GE sign x
  rw [hx, abs_of_pos heta] at h1
  have h2 := norm_vdot_le a x
  rw [le_div_iff₀ heta]
  have h3 := norm2_nonneg a
  calc ‖vdot a x‖ * eta ≤ norm2 a * norm2 x * eta := by gcongr
    _ = norm2 a * (eta * norm2 x) := by ring
    _ ≤ norm2 a * norm2 b := by gcongr

omit [DecidableEq κ] in
/-- **C75** (causality).  For a Hermitian Hamiltonian and `eta > 0`, the Green function of an operator with its own
adjoint (`A† GS = B GS`) has a negative imaginary part (zero only if `B GS = 0`), and every Green function is
bounded by `|A† GS| |B GS| / eta`. -/
theorem C75_causality (hH : HM.IsHermitian) (heta : 0 < eta) (omega : ℝ) (A B : κ) (a b : Vec N)
    (hb : excited B = some b) (ha : excited (dagger A) = some a) (g : ℂ)
    (hg : exactSingle dagger omega A B GE HM excited eta sign = .ok g) :
    (a = b → g.im ≤ 0 ∧ (g.im = 0 ↔ b = 0)) ∧ ‖g‖ ≤ norm2 a * norm2 b / eta := by
  obtain ⟨b', a', x, hb', ha', hx, rfl⟩ := exactSingle_ok_iff.mp hg
  rw [hb] at hb'; cases hb'
  rw [ha] at ha'; cases ha'
  have hx := (solve_ok_iff.mp hx).2
  refine ⟨?_, bound_core hH omega heta a b x hx⟩
  rintro rfl
  rw [diagonal_core hH omega a x hx]
  have h0 := sq_nonneg (norm2 x)
  refine ⟨by nlinarith, ?_⟩
  constructor
  · intro h
    have : norm2 x ^ 2 = 0 := by
      have : eta * norm2 x ^ 2 = 0 := by linarith
      rcases mul_eq_zero.mp this with h | h
      · exact absurd h heta.ne'
      · exact h
    have hx0 : x = 0 := norm2_eq_zero (by simpa using this)
    rw [← hx, hx0, mulVec_zero]
  · rintro rfl
    have := resolvent_bound hH omega eta GE sign x
    rw [hx, norm2_zero, abs_of_pos heta] at this
    have hn := norm2_nonneg x
    have : norm2 x = 0 := by nlinarith
    rw [this]; simp

omit [DecidableEq κ] in
/-- **C75** (causality of the retarded function).  The same for `RGFSolverExactSingle` with `sign = "+"` and
`B = A†`: the imaginary part is not positive, so the spectral function is not negative. -/
theorem C75_retarded_causality (hH : HM.IsHermitian) (heta : 0 < eta) (omega : ℝ) (A B : κ)
    (hAB : dagger A = B) (hBA : dagger B = A) (g : ℂ)
    (hg : rgfExactSingle dagger omega A B GE HM excited eta "+" = .ok g) : g.im ≤ 0 := by
  obtain ⟨ab, ba, h1, h2, rfl⟩ := rgfExactSingle_ok_iff.mp hg
  rw [if_pos rfl, Complex.add_im]
  obtain ⟨b, a, x, hb, ha, -⟩ := exactSingle_ok_iff.mp h1
  obtain ⟨b', a', x', hb', ha', -⟩ := exactSingle_ok_iff.mp h2
  have e1 : a = b := by rw [hAB, hb] at ha; cases ha; rfl
  have e2 : a' = b' := by rw [hBA, hb'] at ha'; cases ha'; rfl
  have := ((C75_causality hH heta omega A B a b hb ha ab h1).1 e1).1
  have := ((C75_causality hH heta omega B A a' b' hb' ha' ba h2).1 e2).1
  linarith

theorem lorentz_integral (c : ℝ) (heta : 0 < eta) :
    MeasureTheory.Integrable (fun omega : ℝ => eta / ((omega + c) ^ 2 + eta ^ 2)) ∧
    ∫ omega : ℝ, eta / ((omega + c) ^ 2 + eta ^ 2) = Real.pi := by
  have e : (fun omega : ℝ => eta / ((omega + c) ^ 2 + eta ^ 2)) =
      fun omega => (fun y : ℝ => (fun u : ℝ => eta⁻¹ * (1 + u ^ 2)⁻¹) (y / eta)) (omega + c) := by
    funext omega
    have h1 : eta ≠ 0 := heta.ne'
    have h2 : (omega + c) ^ 2 + eta ^ 2 ≠ 0 := by positivity
    have h3 : 1 + ((omega + c) / eta) ^ 2 ≠ 0 := by positivity
    simp only
    field_simp
    ring
  rw [e]
  have hi : MeasureTheory.Integrable (fun u : ℝ => eta⁻¹ * (1 + u ^ 2)⁻¹) :=
    integrable_inv_one_add_sq.const_mul _
  constructor
  · exact (hi.comp_div heta.ne').comp_add_right c
  · rw [MeasureTheory.integral_add_right_eq_self (fun y : ℝ => (fun u : ℝ => eta⁻¹ * (1 + u ^ 2)⁻¹) (y / eta)),
      MeasureTheory.Measure.integral_comp_div (fun u : ℝ => eta⁻¹ * (1 + u ^ 2)⁻¹) eta,
      MeasureTheory.integral_const_mul, integral_univ_inv_one_add_sq,
      abs_of_pos heta, smul_eq_mul]
    field_simp

/-- minus the imaginary part of a diagonal Green function is a sum of Lorentzians -/
theorem lorentz_sum (hH : HM.IsHermitian) (heta : 0 < eta) (sign : String) (GE : ℝ) (b : Vec N) :
    ∃ (w c : Fin N → ℝ), (∀ n, 0 ≤ w n) ∧ ∑ n, w n = norm2 b ^ 2 ∧
      ∀ omega x, shifted (zOf omega eta) GE HM sign *ᵥ x = b →
        -(vdot b x).im = ∑ n, w n * (eta / ((omega + c n) ^ 2 + eta ^ 2)) := by
  obtain ⟨V, E, hE⟩ := eigenbasis_exists hH
  refine ⟨fun n => Complex.normSq (vdot (fun r => V r n) b),
    fun n => if sign = "+" then E n - GE else -(E n - GE), fun n => Complex.normSq_nonneg _, ?_, ?_⟩
  · have hVV : V * Vᴴ = 1 := mul_eq_one_comm.mp hE.orthonormal
    have h1 : norm2 (Vᴴ *ᵥ b) = norm2 b := norm2_isometry (V := Vᴴ) (by simpa using hVV) b
    rw [← h1]
    unfold norm2
    rw [Real.sq_sqrt (Finset.sum_nonneg fun i _ => Complex.normSq_nonneg _)]
    rfl
  · intro omega x hx
    rw [lehmann_core hE omega heta.ne' b b x hx, Complex.im_sum, ← Finset.sum_neg_distrib]
    refine Finset.sum_congr rfl fun n _ => ?_
    have e : vdot b (fun r => V r n) * vdot (fun r => V r n) b =
        ((Complex.normSq (vdot (fun r => V r n) b) : ℝ) : ℂ) := by
      rw [← vdot_conj, Complex.star_def, mul_comm, Complex.mul_conj]
    beta_reduce
    rw [e]
    generalize Complex.normSq (vdot (fun r => V r n) b) = w
    have hd : denominator (zOf omega eta) GE (E n) sign =
        ((omega + (if sign = "+" then E n - GE else -(E n - GE)) : ℝ) : ℂ) + Complex.I * eta := by
      unfold denominator zOf
      split_ifs <;> push_cast <;> ring
    rw [hd]
    generalize omega + (if sign = "+" then E n - GE else -(E n - GE)) = y
    rw [Complex.div_im]
    simp only [Complex.ofReal_re, Complex.ofReal_im, Complex.add_re, Complex.add_im, Complex.mul_re,
      Complex.mul_im, Complex.I_re, Complex.I_im, Complex.normSq_apply]
    simp only [zero_mul, one_mul, zero_sub, zero_add, mul_zero, sub_zero, add_zero, zero_div]
    rw [show y ^ 2 + eta ^ 2 = y * y + eta * eta by ring, neg_neg, mul_div_assoc]

theorem weight_core (hH : HM.IsHermitian) (heta : 0 < eta) (sign : String) (GE : ℝ) (b : Vec N) (g : ℝ → ℂ)
    (hg : ∀ omega, ∃ x, shifted (zOf omega eta) GE HM sign *ᵥ x = b ∧ g omega = vdot b x) :
    MeasureTheory.Integrable (fun omega => -(g omega).im) ∧
    ∫ omega, -(g omega).im = Real.pi * norm2 b ^ 2 := by
  obtain ⟨w, c, -, hw, h⟩ := lorentz_sum hH heta sign GE b
  have e : (fun omega => -(g omega).im) =
      fun omega => ∑ n, w n * (eta / ((omega + c n) ^ 2 + eta ^ 2)) := by
    funext omega
    obtain ⟨x, hx, hgx⟩ := hg omega
    rw [hgx, h omega x hx]
  rw [e]
  have hi : ∀ n ∈ Finset.univ, MeasureTheory.Integrable
      (fun omega : ℝ => w n * (eta / ((omega + c n) ^ 2 + eta ^ 2))) :=
    fun n _ => (lorentz_integral (c n) heta).1.const_mul _
  refine ⟨MeasureTheory.integrable_finsetSum _ hi, ?_⟩
  rw [MeasureTheory.integral_finsetSum _ hi, ← hw, Finset.mul_sum]
  refine Finset.sum_congr rfl fun n _ => ?_
  rw [MeasureTheory.integral_const_mul, (lorentz_integral (c n) heta).2, mul_comm]

omit [DecidableEq κ] in
/-- **C75** (sum rule).  The spectral function `-Im G / pi` of an operator with its own adjoint, integrated over
all frequencies, is `|B GS|^2` whatever the broadening `eta > 0`. -/
theorem C75_sum_rule (hH : HM.IsHermitian) (heta : 0 < eta) (A B : κ) (b : Vec N)
    (hb : excited B = some b) (ha : excited (dagger A) = some b) (g : ℝ → ℂ)
    (hg : ∀ omega, exactSingle dagger omega A B GE HM excited eta sign = .ok (g omega)) :
    MeasureTheory.Integrable (fun omega => -(g omega).im / Real.pi) ∧
    ∫ omega, -(g omega).im / Real.pi = norm2 b ^ 2 := by
  have := weight_core hH heta sign GE b g (fun omega => by
    obtain ⟨b', a', x, hb', ha', hx, h⟩ := exactSingle_ok_iff.mp (hg omega)
    rw [hb] at hb'; cases hb'
    rw [ha] at ha'; cases ha'
    exact ⟨x, (solve_ok_iff.mp hx).2, h⟩)
  refine ⟨this.1.div_const _, ?_⟩
  rw [MeasureTheory.integral_div, this.2]
  field_simp

/-- **C75** (sum rule of the Lanczos solver).  With the projections produced by `MultiKrylov` the spectral weight
is `|B GS|^2` too, for every Krylov dimension: truncation moves weight but loses none. -/
theorem C75_lanczos_sum_rule (hH : HM.IsHermitian) {t : ℝ} (ht : 0 ≤ t) (heta : 0 < eta) {K : ℤ} (hK : 0 < K)
    {keys : List κ} {vectors : κ → Vec N} {reps : List (Rep κ)}
    (h : multiKrylov t HM keys vectors K = .ok reps) (A B : κ) (hB : B ∈ keys) (hAB : dagger A = B) (g : ℝ → ℂ)
    (hg : ∀ omega, lanczosSingle dagger omega A B GE (toDict keys reps) eta sign = .ok (g omega)) :
    ∫ omega, -(g omega).im / Real.pi = norm2 (vectors B) ^ 2 ∧
    ∀ omega, (g omega).im ≤ 0 := by
  obtain ⟨rep, hrep, hdict⟩ := toDict_get h hB
  obtain ⟨-, -, -, -, hband, -⟩ := C56_lanczos_representation hH ht hrep
  have hstart := C57_start_vector hH ht hrep B rfl
  have hd : 0 < rep.dim := (C57_dimension hH ht hrep).1 hK |>.1
  have hTH := real_symm_hermitian hband.symm
  have key : ∀ omega, ∃ x, shifted (zOf omega eta) GE (rep.mat.map fun x => (x : ℂ)) sign *ᵥ x = rep.vec B ∧
      g omega = vdot (rep.vec B) x := by
    intro omega
    obtain ⟨r, temp, b, a, x, hr, htemp, hbf, ha, hx, hgx⟩ := lanczosSingle_ok_iff.mp (hg omega)
    rw [hdict] at hr
    cases hr
    simp only [hB, if_true, Option.some.injEq] at htemp ha
    rw [hAB] at ha
    simp only [hB, if_true, Option.some.injEq] at ha
    subst htemp
    subst ha
    have hb : b = rep.vec B := by
      unfold firstOnly at hbf
      rw [dif_pos hd] at hbf
      cases hbf
      funext i
      rw [hstart i]
      by_cases hi : (i : ℕ) = 0
      · have : i = ⟨0, hd⟩ := Fin.ext hi
        subst this
        rw [Function.update_self, hstart]
      · rw [Function.update_of_ne (fun e => hi (by rw [e])), if_neg hi]
        rfl
    subst hb
    exact ⟨x, (solve_ok_iff.mp hx).2, hgx⟩
  have hw := (weight_core hTH heta sign GE (rep.vec B) g key).2
  have hn : norm2 (rep.vec B) ^ 2 = norm2 (vectors B) ^ 2 := by
    have : norm2 (rep.vec B) ^ 2 = ∑ i, Complex.normSq (rep.vec B i) := by
      unfold norm2
      rw [Real.sq_sqrt (Finset.sum_nonneg fun i _ => Complex.normSq_nonneg _)]
    rw [this, Finset.sum_eq_single ⟨0, hd⟩]
    · rw [hstart, if_pos rfl, Complex.normSq_ofReal, sq]
    · intro i _ hi
      rw [hstart, if_neg (fun e => hi (Fin.ext e))]
      simp
    · simp
  refine ⟨?_, ?_⟩
  · rw [MeasureTheory.integral_div, hw, hn]
    field_simp
  · intro omega
    obtain ⟨x, hx, hgx⟩ := key omega
    rw [hgx, diagonal_core hTH omega _ x hx]
    nlinarith [sq_nonneg (norm2 x)]

theorem ratio_tendsto (c : ℂ) :
    Filter.Tendsto (fun omega : ℝ => (omega : ℂ) / ((omega : ℂ) + c)) Filter.atTop (nhds 1) := by
  have h0 : Filter.Tendsto (fun omega : ℝ => ((omega⁻¹ : ℝ) : ℂ)) Filter.atTop (nhds ((0 : ℝ) : ℂ)) :=
    (Complex.continuous_ofReal.tendsto 0).comp tendsto_inv_atTop_zero
  have h1 : Filter.Tendsto (fun omega : ℝ => (1 + c * ((omega⁻¹ : ℝ) : ℂ))⁻¹) Filter.atTop
      (nhds ((1 + c * ((0 : ℝ) : ℂ))⁻¹)) := by
    apply Filter.Tendsto.inv₀
    · exact tendsto_const_nhds.add (tendsto_const_nhds.mul h0)
    · simp
  simp only [Complex.ofReal_zero, mul_zero, add_zero, inv_one] at h1
  refine h1.congr' ?_
  filter_upwards [Filter.eventually_gt_atTop (0 : ℝ)] with omega hw
  have hne : (omega : ℂ) ≠ 0 := by exact_mod_cast hw.ne'
  rw [Complex.ofReal_inv, show 1 + c * (omega : ℂ)⁻¹ = ((omega : ℂ) + c) * (omega : ℂ)⁻¹ by field_simp,
    mul_inv, inv_inv, div_eq_mul_inv, mul_comm]

omit [DecidableEq κ] in
/-- **C75** (high frequencies).  `omega G_AB(omega)` tends to `<A† GS | B GS>`. -/
theorem C75_high_frequency (hH : HM.IsHermitian) (heta : eta ≠ 0) (A B : κ) (a b : Vec N)
    (hb : excited B = some b) (ha : excited (dagger A) = some a) (g : ℝ → ℂ)
    (hg : ∀ omega, exactSingle dagger omega A B GE HM excited eta sign = .ok (g omega)) :
    Filter.Tendsto (fun omega : ℝ => (omega : ℂ) * g omega) Filter.atTop (nhds (vdot a b)) := by
  obtain ⟨V, E, hE⟩ := eigenbasis_exists hH
  have hVV : V * Vᴴ = 1 := mul_eq_one_comm.mp hE.orthonormal
  have hab : vdot a b = ∑ n, vdot a (fun r => V r n) * vdot (fun r => V r n) b * 1 := by
    have h1 : vdot a b = vdot (Vᴴ *ᵥ a) (Vᴴ *ᵥ b) := by
      rw [vdot_conjTranspose, mulVec_mulVec, hVV, one_mulVec]
    rw [h1]
    simp only [mul_one]
    have h2 : ∀ n, vdot a (fun r => V r n) = star ((Vᴴ *ᵥ a) n) := by
      intro n
      rw [← vdot_conj]
      rfl
    simp only [h2]
    rfl
  rw [hab]
  have e : (fun omega : ℝ => (omega : ℂ) * g omega) = fun omega : ℝ =>
      ∑ n, vdot a (fun r => V r n) * vdot (fun r => V r n) b *
        ((omega : ℂ) / ((omega : ℂ) + (Complex.I * eta +
          (if sign = "+" then ((E n - GE : ℝ) : ℂ) else -((E n - GE : ℝ) : ℂ))))) := by
    funext omega
    rw [C75_lehmann hE heta omega A B a b hb ha (g omega) (hg omega), Finset.mul_sum]
    refine Finset.sum_congr rfl fun n _ => ?_
    have : denominator (zOf omega eta) GE (E n) sign = (omega : ℂ) + (Complex.I * eta +
          (if sign = "+" then ((E n - GE : ℝ) : ℂ) else -((E n - GE : ℝ) : ℂ))) := by
      unfold denominator zOf
      split_ifs <;> ring
    rw [this]
    ring
  rw [e]
  exact tendsto_finsetSum _ fun n _ => tendsto_const_nhds.mul (ratio_tendsto _)

omit [DecidableEq κ] in
/-- **C75** (adjoint).  Exchanging the two operators for each other's adjoints and reversing the sign of `eta`
conjugates the Green function. -/
theorem C75_conjugate (hH : HM.IsHermitian) (omega : ℝ) (A B A' B' : κ)
    (hA : excited B' = excited (dagger A)) (hB : excited (dagger A') = excited B) (g g' : ℂ)
    (hg : exactSingle dagger omega A B GE HM excited eta sign = .ok g)
    (hg' : exactSingle dagger omega A' B' GE HM excited (-eta) sign = .ok g') : g' = star g := by
  obtain ⟨b, a, x, hb, ha, hx, rfl⟩ := exactSingle_ok_iff.mp hg
  obtain ⟨b', a', x', hb', ha', hx', rfl⟩ := exactSingle_ok_iff.mp hg'
  rw [hA, ha] at hb'; cases hb'
  rw [hB, hb] at ha'; cases ha'
  have h1 := (solve_ok_iff.mp hx).2
  have h2 := (solve_ok_iff.mp hx').2
  rw [vdot_conj]
  have hs : (shifted (zOf omega eta) GE HM sign)ᴴ = shifted (zOf omega (-eta)) GE HM sign := by
    unfold shifted zOf
    split_ifs
    · rw [conjTranspose_add, conjTranspose_smul, conjTranspose_one, hH.eq]
      congr 2
      simp
    · rw [conjTranspose_sub, conjTranspose_smul, conjTranspose_one, hH.eq]
      congr 2
      simp
  rw [← h1, ← h2, ← vdot_conjTranspose, ← hs, conjTranspose_conjTranspose]

/-- Non-vacuity of C75: a Hermitian two-level Hamiltonian whose Green functions exist at all frequencies. -/
example : ∃ (HM : Matrix (Fin 2) (Fin 2) ℂ) (g : ℝ → ℂ), HM.IsHermitian ∧ HM ≠ 0 ∧
    ∀ omega, exactSingle (fun _ : Unit => ()) omega () () 3 HM (fun _ => some (![1, 0] : Vec 2)) (1 / 2) "-" =
      .ok (g omega) := by
  have hH := Lanczos.swap_example.1
  have h := fun omega => (C60_exact (dagger := fun _ : Unit => ()) (GE := 3) (eta := 1 / 2) (sign := "-")
    (excited := fun _ => some (![1, 0] : Vec 2)) hH (by norm_num) omega () ()).1 _ _ rfl rfl
  choose x hx using fun omega => (h omega).exists
  refine ⟨_, fun omega => _, hH, ?_, fun omega => (hx omega).2⟩
  intro h0
  have := congrFun (congrFun h0 0) 1
  simp at this

end Verif.GF
