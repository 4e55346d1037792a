import Verif.Proofs.Heisenberg
import Verif.Proofs.DemoFinish
import Verif.Proofs.DemoSectors
import Verif.Props.GreenSpectral
/-!
# The Green functions of the Heisenberg demos
-/

namespace Verif.Demo

open Latt LDB Spec Matrix Lanczos GF

/-- The identifiers of the sites `0, ..., n - 1`. -/
structure Sites (zoom : ℤ) (coordOf : ℝ → Coord) (n : ℕ) (sid : ℕ → SiteID) : Prop where
  init_eq : ∀ i < n, SiteID.init zoom [coordOf (i : ℝ)] = .ok (sid i)
  site_eq : ∀ i < n, (sid i).site = [coordOf (i : ℝ)]
  inj : ∀ i i', i < n → i' < n → sid i = sid i' → i = i'

theorem sites_of_exact (p : ℕ) (hp : p ≤ 22) {n : ℕ} (hn : 10 ^ p * n ≤ 2 ^ 53) {coordOf : ℝ → Coord}
    (hc : ∀ i < n, coordOf (i : ℝ) = .flt (.fin i)) :
    Sites (10 ^ p) coordOf n fun i => ⟨[coordOf (i : ℝ)], [10 ^ p * (i : ℤ)]⟩ := by
  refine ⟨?_, fun _ _ => rfl, ?_⟩
  · intro i hi
    have h := (C04_int_float_identified p hp (i : ℤ) (by
      rw [abs_of_nonneg (by positivity)]
      have h1 : 10 ^ p * i ≤ 10 ^ p * n := Nat.mul_le_mul_left _ hi.le
      exact_mod_cast h1.trans hn)).2
    rw [Int.cast_natCast] at h
    unfold SiteID.init
    rw [hc i hi]
    simp [pyAssert, h, bind, Except.bind, pure, Except.pure]
  · intro i i' _ _ h
    simp only [SiteID.mk.injEq, List.cons.injEq, and_true] at h
    have h0 : (10 : ℤ) ^ p ≠ 0 := by positivity
    exact_mod_cast mul_left_cancel₀ h0 h.2

section

variable {zoom : ℤ} {coordOf : ℝ → Coord} {n prec : ℕ} {sid : ℕ → SiteID}

/-- `S_i^+`. -/
def opSp (sid : ℕ → SiteID) (i : ℕ) : SpinOperator := ⟨.p, sid i⟩
/-- `S_i^-`. -/
def opSm (sid : ℕ → SiteID) (i : ℕ) : SpinOperator := ⟨.m, sid i⟩

theorem dagger_opSp (h : Sites zoom coordOf n sid) {i : ℕ} (hi : i < n) :
    spinDaggerOf zoom (opSp sid i) = opSm sid i := by
  have h1 := h.init_eq i hi
  have h2 := h.site_eq i hi
  unfold spinDaggerOf opSp opSm SpinOperator.dagger SpinOperator.derive
  simp only [Option.getD_none, Option.getD_some]
  rw [h2, h1]
  rfl

/-- The excited states `S_i^- |GS>`. -/
noncomputable def lowered (n : ℕ) (GS : Vec (2 ^ n)) (i : ℕ) : Vec (2 ^ n) := siteOp n i (spinHalf .m) *ᵥ GS

/-- What the loop over the sites collects. -/
noncomputable def loopOps (n : ℕ) (sid : ℕ → SiteID) (GS : Vec (2 ^ n)) :
    List (SpinOperator × SpinOperator × Vec (2 ^ n)) :=
  (List.range n).map fun i => (opSp sid i, opSm sid i, lowered n GS i)

theorem finRange_range {α : Type} (f : ℕ → α) (n : ℕ) :
    (List.finRange n).map (fun i : Fin n => f i) = (List.range n).map f := by
  apply List.ext_getElem
  · simp
  · intro i h1 h2
    simp

theorem spinExcitations_ok (h : Sites zoom coordOf n sid) {near : ∀ n m : ℕ, (Fin n → Pt m) → Pt m → Option (Fin n)}
    {L : Lat n 1 1} (hL : ∀ i, L.points i = ![((i : ℕ) : ℝ)])
    (hidx : ∀ i, getIndex (near n 1) prec L (L.points i) = .ok i) (HM : Matrix (Fin (2 ^ n)) (Fin (2 ^ n)) ℂ)
    (GS : Vec (2 ^ n)) :
    spinExcitations near zoom coordOf prec ⟨⟨n, 1, 1, L⟩, HM⟩ GS = .ok (loopOps n sid GS) := by
  unfold spinExcitations loopOps
  rw [← finRange_range]
  refine mapM_ok_map fun i _ => ?_
  unfold spinExcitation
  dsimp only
  rw [hidx i]
  simp only [bind, Except.bind]
  rw [spinInit_eq zoom "p" .p rfl, spinInit_eq zoom "m" .m rfl, hL, siteOf_pt, h.init_eq i i.2]
  simp only [Except.map]
  obtain ⟨M, hM, -, h2⟩ := (C29_single_spin_matrix ((i : ℕ) : ℤ) n .m).1 ⟨by omega, by have : (i : ℕ) < n := i.2; omega⟩
  rw [hM]
  dsimp only [pure, Except.pure]
  simp only [Int.toNat_natCast] at h2
  rw [h2]
  rfl

theorem opSm_inj (h : Sites zoom coordOf n sid) {i j : ℕ} (hi : i < n) (hj : j < n) (he : opSm sid i = opSm sid j) :
    i = j := h.inj i j hi hj (SpinOperator.mk.inj he).2

theorem opSp_inj (h : Sites zoom coordOf n sid) {i j : ℕ} (hi : i < n) (hj : j < n) (he : opSp sid i = opSp sid j) :
    i = j := h.inj i j hi hj (SpinOperator.mk.inj he).2

theorem excited_opSm (h : Sites zoom coordOf n sid) (GS : Vec (2 ^ n)) {i : ℕ} (hi : i < n) :
    excitedDict (loopOps n sid GS) (opSm sid i) = some (lowered n GS i) := by
  unfold excitedDict loopOps
  refine applyWrites_of_forall _ _ _ _ ⟨(opSm sid i, some (lowered n GS i)), ?_, rfl⟩ ?_
  · rw [List.map_map]
    exact List.mem_map.2 ⟨i, List.mem_range.2 hi, rfl⟩
  · rw [List.map_map]
    intro w hw hwi
    obtain ⟨j, hj, rfl⟩ := List.mem_map.1 hw
    have := opSm_inj h (List.mem_range.1 hj) hi hwi
    rw [this]
    rfl

/-- The keys of the dict. -/
def spinKeys (n : ℕ) (sid : ℕ → SiteID) : List (SpinOperator × SpinOperator) :=
  ((List.range n).map (opSp sid)).flatMap fun A => ((List.range n).map (opSm sid)).map fun B => (A, B)

theorem spinKeys_nodup (h : Sites zoom coordOf n sid) : (spinKeys n sid).Nodup := by
  have hA : ((List.range n).map (opSp sid)).Nodup := List.nodup_range.map_on fun p hp q hq he =>
    opSp_inj h (List.mem_range.1 hp) (List.mem_range.1 hq) he
  have hC : ((List.range n).map (opSm sid)).Nodup := List.nodup_range.map_on fun p hp q hq he =>
    opSm_inj h (List.mem_range.1 hp) (List.mem_range.1 hq) he
  unfold spinKeys
  rw [List.nodup_flatMap]
  refine ⟨fun s _ => hC.map fun a b h => (Prod.mk.inj h).2, ?_⟩
  refine hA.imp fun {a b} hab => ?_
  intro p h1 h2
  obtain ⟨i, -, rfl⟩ := List.mem_map.1 h1
  obtain ⟨j, -, he⟩ := List.mem_map.1 h2
  exact hab (Prod.mk.inj he).1.symm

/-- The exact correlation function of the sites `i` and `j`. -/
noncomputable def spinCorr (n : ℕ) (HM : Matrix (Fin (2 ^ n)) (Fin (2 ^ n)) ℂ) (GE : ℝ) (GS : Vec (2 ^ n)) (omega eta : ℝ)
    (i j : ℕ) : ℂ :=
  Lanczos.vdot (lowered n GS i) ((shifted (zOf omega eta) GE HM "-")⁻¹ *ᵥ lowered n GS j)

/-- A dict with the right keys whose values are correct up to `δ`. -/
def CloseSpin (n : ℕ) (sid : ℕ → SiteID) (HM : Matrix (Fin (2 ^ n)) (Fin (2 ^ n)) ℂ) (GE : ℝ) (GS : Vec (2 ^ n))
    (omegas : List ℝ) (eta δ : ℝ) (D : SpinDict omegas.length) : Prop :=
  D.keys = spinKeys n sid ∧ ∀ i < n, ∀ j < n, ∃ row, D.get (opSp sid i, opSm sid j) = some row ∧
    ∀ wi : Fin omegas.length, ‖row wi - spinCorr n HM GE GS (omegas.get wi) eta i j‖ ≤ δ

theorem loopOps_p (GS : Vec (2 ^ n)) : ((loopOps n sid GS).map fun p => p.1) = (List.range n).map (opSp sid) := by
  unfold loopOps; rw [List.map_map]; rfl

theorem loopOps_m (GS : Vec (2 ^ n)) : ((loopOps n sid GS).map fun p => p.2.1) = (List.range n).map (opSm sid) := by
  unfold loopOps; rw [List.map_map]; rfl

theorem spinDict_close (h : Sites zoom coordOf n sid) {HM : Matrix (Fin (2 ^ n)) (Fin (2 ^ n)) ℂ} {GE eta δ : ℝ}
    {GS : Vec (2 ^ n)} {omegas : List ℝ} {As Bs : List SpinOperator} (hAs : As = (List.range n).map (opSp sid))
    (hBs : Bs = (List.range n).map (opSm sid)) {single : ℝ → SpinOperator → SpinOperator → Py ℂ}
    {r : GFs SpinOperator As.length Bs.length omegas.length} (hr : Tabulates single omegas As Bs r) (hd : r.IsDict)
    (hs : ∀ omega ∈ omegas, ∀ i < n, ∀ j < n, ∃ v, single omega (opSp sid i) (opSm sid j) = .ok v ∧
      ‖v - spinCorr n HM GE GS omega eta i j‖ ≤ δ) :
    ∃ D, SpinDict.of As Bs r = .ok D ∧ CloseSpin n sid HM GE GS omegas eta δ D := by
  cases r with
  | array G => exact absurd hd id
  | dict D =>
    refine ⟨_, rfl, ?_, ?_⟩
    · subst hAs hBs
      exact firstOccurrences_nodup (spinKeys_nodup h)
    · intro i hi j hj
      obtain ⟨h1, h2⟩ := hr (opSp sid i) (opSm sid j)
      have h3 := h1.2 ⟨by rw [hAs]; exact List.mem_map_of_mem (List.mem_range.2 hi),
        by rw [hBs]; exact List.mem_map_of_mem (List.mem_range.2 hj)⟩
      obtain ⟨row, hrow⟩ := Option.ne_none_iff_exists'.1 h3
      refine ⟨row, hrow, fun wi => ?_⟩
      obtain ⟨v, hv1, hv2⟩ := hs (omegas.get wi) (List.get_mem _ _) i hi j hj
      rw [h2 row hrow wi] at hv1
      cases hv1
      exact hv2

theorem spinGfsExact_ok (h : Sites zoom coordOf n sid) (hn : 1 ≤ n) {HM : Matrix (Fin (2 ^ n)) (Fin (2 ^ n)) ℂ}
    (hH : HM.IsHermitian) {GE eta : ℝ} (heta : eta ≠ 0) (GS : Vec (2 ^ n)) (omegas : List ℝ) (g : Garbage omegas.length) :
    ∃ D, spinGfsExact zoom HM (loopOps n sid GS) GE omegas eta g = .ok D ∧
      CloseSpin n sid HM GE GS omegas eta 0 D := by
  have hs : ∀ omega, ∀ i < n, ∀ j < n, exactSingle (spinDaggerOf zoom) omega (opSp sid i) (opSm sid j) GE HM
      (excitedDict (loopOps n sid GS)) eta "-" = .ok (spinCorr n HM GE GS omega eta i j) := by
    intro omega i hi j hj
    have hu := shifted_isUnit hH (omega := omega) (GE := GE) heta "-"
    refine exactSingle_ok_iff.2 ⟨_, _, _, excited_opSm h GS hj, by
      rw [dagger_opSp h hi]; exact excited_opSm h GS hi, solve_ok_iff.2 ⟨hu, ?_⟩, rfl⟩
    rw [mulVec_mulVec, mul_nonsing_inv _ hu, one_mulVec]
  have hAs := loopOps_p (sid := sid) GS
  have hBs := loopOps_m (sid := sid) GS
  unfold spinGfsExact
  generalize ((loopOps n sid GS).map fun p => p.1) = As at hAs ⊢
  generalize ((loopOps n sid GS).map fun p => p.2.1) = Bs at hBs ⊢
  obtain ⟨c1, c2⟩ := C59_exact_multiple (dagger := spinDaggerOf zoom) (omegas := omegas) (As := As) (Bs := Bs) (GE := GE)
    (HM := HM) (excited := excitedDict (loopOps n sid GS)) (eta := eta) (sign := "-") (struct := "dict") (g _ _)
  obtain ⟨r, hr⟩ := c2 (by
      rw [hAs]
      intro h0
      have := congrArg List.length h0
      simp at this
      omega) (by
    intro omega _ A hA B hB
    rw [hAs] at hA
    rw [hBs] at hB
    obtain ⟨i, hi, rfl⟩ := List.mem_map.1 hA
    obtain ⟨j, hj, rfl⟩ := List.mem_map.1 hB
    exact ⟨_, hs omega i (List.mem_range.1 hi) j (List.mem_range.1 hj)⟩)
  obtain ⟨t1, t2⟩ := c1 r hr
  rw [hr]
  exact spinDict_close h hAs hBs t1 (t2.2 rfl) fun omega _ i hi j hj => ⟨_, hs omega i hi j hj, by simp⟩

theorem spinPhase_op (hc : ∀ i < n, coordOf (i : ℝ) = .flt (.fin i)) (h : Sites zoom coordOf n sid) {i j : ℕ}
    (hi : i < n) (hj : j < n) (k : ℝ) :
    spinPhase [k] (opSp sid i) (opSm sid j) =
      star (Complex.exp (Complex.I * (k * i : ℝ))) * Complex.exp (Complex.I * (k * j : ℝ)) := by
  unfold spinPhase opSp opSm
  dsimp only
  rw [h.site_eq i hi, h.site_eq j hj, hc i hi, hc j hj, Complex.star_def, ← Complex.exp_conj, ← Complex.exp_add]
  congr 1
  simp only [List.map_cons, List.map_nil, List.zipWith_cons_cons, List.zipWith_nil_right, List.sum_cons, List.sum_nil,
    add_zero, coordVal, map_mul, Complex.conj_I, Complex.conj_ofReal]
  push_cast
  ring

theorem spectrum_near {m : ℕ} {R : Spectrum m} {wi : Fin m} {i : Fin R.kpts.length} {X : ℂ} {δ : ℝ}
    (h : ‖R.gfs wi i - X‖ ≤ δ) : |R.spectrum wi i - -X.im / Real.pi| ≤ δ / Real.pi := by
  unfold Spectrum.spectrum
  rw [← sub_div, abs_div, abs_of_pos Real.pi_pos]
  refine div_le_div_of_nonneg_right ?_ Real.pi_pos.le
  refine le_trans ?_ h
  refine le_trans (le_of_eq ?_) (Complex.abs_im_le_norm _)
  rw [Complex.sub_im, ← abs_neg]
  congr 1
  ring

theorem weight_lorentz (w omega eta e : ℝ) :
    ((w : ℂ) / ((omega : ℂ) + Complex.I * eta - (e : ℂ))).im = -(w * (eta / ((omega - e) ^ 2 + eta ^ 2))) := by
  have h1 : ((omega : ℂ) + Complex.I * eta - (e : ℂ)).re = omega - e := by simp
  have h2 : ((omega : ℂ) + Complex.I * eta - (e : ℂ)).im = eta := by simp
  rw [Complex.div_im, Complex.normSq_apply, h1, h2]
  simp only [Complex.ofReal_im, Complex.ofReal_re, zero_mul, zero_div, zero_sub]
  rw [← sq, ← sq]
  ring

theorem vdot_wave {N : ℕ} (n : ℕ) (u : ℕ → ℂ) (b x : ℕ → Vec N) (s : ℝ) :
    Lanczos.vdot ((s : ℂ) • ∑ i ∈ Finset.range n, u i • b i) ((s : ℂ) • ∑ j ∈ Finset.range n, u j • x j) =
      (s : ℂ) ^ 2 * ∑ i ∈ Finset.range n, ∑ j ∈ Finset.range n, star (u i) * u j * Lanczos.vdot (b i) (x j) := by
  rw [vdot_smul_left, vdot_smul_right, vdot_sum_left, Complex.star_def, Complex.conj_ofReal, ← mul_assoc, ← sq]
  congr 1
  refine Finset.sum_congr rfl fun i _ => ?_
  rw [vdot_smul_left, vdot_sum_right, Finset.mul_sum]
  refine Finset.sum_congr rfl fun j _ => ?_
  rw [vdot_smul_right, Complex.star_def]
  ring

theorem spinFinish_close (hprec : 1 ≤ prec) (hn : 1 ≤ n) (hc : ∀ i < n, coordOf (i : ℝ) = .flt (.fin i))
    (h : Sites zoom coordOf n sid) {HM : Matrix (Fin (2 ^ n)) (Fin (2 ^ n)) ℂ} (hH : HM.IsHermitian)
    {GE eta δ : ℝ} (heta : eta ≠ 0) {GS : Vec (2 ^ n)} {omegas : List ℝ} {D : SpinDict omegas.length}
    (hD : CloseSpin n sid HM GE GS omegas eta δ D) :
    ∃ R, spinFinish prec n D = .ok R ∧ IsSpinSpectrum n HM GE GS omegas eta (n * δ) R := by
  obtain ⟨cell, hcell, hkp⟩ := kpoints_ok (prec := prec) hprec n
  refine ⟨spinKspaceGfs n ((List.range (n + 1)).map fun i : ℕ => [2 * Real.pi * i / n]) D, ?_, rfl, ?_⟩
  · unfold spinFinish
    rw [hcell]
    simp only [bind, Except.bind]
    rw [hkp]
    rfl
  intro V E hV hE wi q
  have hn0 : (0 : ℝ) < n := by exact_mod_cast hn
  have hn0' : (n : ℂ) ≠ 0 := by exact_mod_cast (by omega : n ≠ 0)
  set k : ℝ := 2 * Real.pi * (q : ℕ) / n with hk
  have hval : (spinKspaceGfs n ((List.range (n + 1)).map fun i : ℕ => [2 * Real.pi * i / n]) D).gfs wi q =
      (D.keys.map fun p => (D.get p).getD 0 wi * spinPhase [k] p.1 p.2).sum / (n : ℂ) := by
    have hi : ∀ i : Fin ((List.range (n + 1)).map fun i : ℕ => [2 * Real.pi * (i : ℝ) / n]).length,
        ((List.range (n + 1)).map fun i : ℕ => [2 * Real.pi * (i : ℝ) / n]).get i =
          [2 * Real.pi * ((i : ℕ) : ℝ) / n] := by
      intro i
      rw [List.get_eq_getElem, List.getElem_map, List.getElem_range]
    exact congrArg (fun k => (D.keys.map fun p => (D.get p).getD 0 wi * spinPhase k p.1 p.2).sum / (n : ℂ)) (hi q)
  set u : ℕ → ℂ := fun j => Complex.exp (Complex.I * (k * j : ℝ)) with hu
  have hunorm : ∀ j, ‖u j‖ = 1 := by
    intro j
    rw [hu]
    dsimp only
    rw [mul_comm, Complex.norm_exp_ofReal_mul_I]
  -- the exact value
  set S := shifted (zOf (omegas.get wi) eta) GE HM "-" with hS
  have hunit := shifted_isUnit hH (omega := omegas.get wi) (GE := GE) heta "-"
  have hwave : spinWave n k *ᵥ GS =
      ((1 / Real.sqrt n : ℝ) : ℂ) • ∑ j ∈ Finset.range n, u j • lowered n GS j := by
    unfold spinWave lowered
    rw [smul_mulVec, sum_mulVec]
    simp only [smul_mulVec]
    rfl
  have hx : S *ᵥ (((1 / Real.sqrt n : ℝ) : ℂ) • ∑ j ∈ Finset.range n, u j • (S⁻¹ *ᵥ lowered n GS j)) =
      spinWave n k *ᵥ GS := by
    rw [hwave, mulVec_smul, mulVec_sum]
    congr 1
    refine Finset.sum_congr rfl fun j _ => ?_
    rw [mulVec_smul, mulVec_mulVec, mul_nonsing_inv _ hunit, one_mulVec]
  have hleh := lehmann_core (sign := "-") ⟨hV, hE⟩ (omegas.get wi) heta (spinWave n k *ᵥ GS) _ _ hx
  have hsq : (((1 / Real.sqrt n : ℝ) : ℂ)) ^ 2 = 1 / (n : ℂ) := by
    rw [← Complex.ofReal_pow, div_pow, one_pow, Real.sq_sqrt hn0.le]
    push_cast
    rfl
  have hexact : (∑ i ∈ Finset.range n, ∑ j ∈ Finset.range n, star (u i) * u j *
        spinCorr n HM GE GS (omegas.get wi) eta i j) / (n : ℂ) =
      ∑ l, (Complex.normSq (Lanczos.vdot (fun r => V r l) (spinWave n k *ᵥ GS)) : ℂ) /
        ((omegas.get wi : ℂ) + Complex.I * eta - ((E l - GE : ℝ) : ℂ)) := by
    have h1 : Lanczos.vdot (spinWave n k *ᵥ GS)
        (((1 / Real.sqrt n : ℝ) : ℂ) • ∑ j ∈ Finset.range n, u j • (S⁻¹ *ᵥ lowered n GS j)) =
        (∑ i ∈ Finset.range n, ∑ j ∈ Finset.range n, star (u i) * u j *
        spinCorr n HM GE GS (omegas.get wi) eta i j) / (n : ℂ) := by
      rw [hwave, vdot_wave, hsq]
      rw [div_mul_eq_mul_div, one_mul]
      rfl
    rw [← h1, hleh]
    refine Finset.sum_congr rfl fun l _ => ?_
    have h2 : denominator (zOf (omegas.get wi) eta) GE (E l) "-" =
        (omegas.get wi : ℂ) + Complex.I * eta - ((E l - GE : ℝ) : ℂ) := by
      unfold denominator zOf
      rw [if_neg (by decide)]
    rw [h2]
    congr 1
    rw [Complex.normSq_eq_conj_mul_self]
    rw [← Complex.star_def, vdot_conj]
  have hsum : (D.keys.map fun p => (D.get p).getD 0 wi * spinPhase [k] p.1 p.2).sum =
      ∑ i ∈ Finset.range n, ∑ j ∈ Finset.range n, (D.get (opSp sid i, opSm sid j)).getD 0 wi * (star (u i) * u j) := by
    rw [hD.1]
    unfold spinKeys
    rw [sum_map_flatMap, List.map_map, list_sum_range]
    refine Finset.sum_congr rfl fun i hi => ?_
    dsimp only [Function.comp]
    rw [List.map_map, List.map_map, list_sum_range]
    refine Finset.sum_congr rfl fun j hj => ?_
    dsimp only [Function.comp]
    rw [spinPhase_op hc h (Finset.mem_range.1 hi) (Finset.mem_range.1 hj)]
  have hgf : ‖(spinKspaceGfs n ((List.range (n + 1)).map fun i : ℕ => [2 * Real.pi * i / n]) D).gfs wi q -
      ∑ l, (Complex.normSq (Lanczos.vdot (fun r => V r l) (spinWave n k *ᵥ GS)) : ℂ) /
        ((omegas.get wi : ℂ) + Complex.I * eta - ((E l - GE : ℝ) : ℂ))‖ ≤ n * δ := by
    rw [hval, hsum, ← hexact, ← sub_div, norm_div, Complex.norm_natCast, div_le_iff₀ hn0, ← Finset.sum_sub_distrib]
    have hin : ∀ i ∈ Finset.range n, ‖∑ j ∈ Finset.range n, (D.get (opSp sid i, opSm sid j)).getD 0 wi * (star (u i) * u j) -
        ∑ j ∈ Finset.range n, star (u i) * u j * spinCorr n HM GE GS (omegas.get wi) eta i j‖ ≤ n * δ := by
      intro i hi
      rw [← Finset.sum_sub_distrib]
      refine (norm_sum_le _ _).trans ?_
      have hb : ∀ j ∈ Finset.range n, ‖(D.get (opSp sid i, opSm sid j)).getD 0 wi * (star (u i) * u j) -
          star (u i) * u j * spinCorr n HM GE GS (omegas.get wi) eta i j‖ ≤ δ := by
        intro j hj
        obtain ⟨row, r1, r2⟩ := hD.2 i (Finset.mem_range.1 hi) j (Finset.mem_range.1 hj)
        rw [r1, Option.getD_some, mul_comm (row wi), ← mul_sub, norm_mul, norm_mul, norm_star, hunorm, hunorm, one_mul,
          one_mul]
        exact r2 wi
      refine (Finset.sum_le_card_nsmul _ _ _ hb).trans (le_of_eq ?_)
      rw [Finset.card_range, nsmul_eq_mul]
    refine (norm_sum_le _ _).trans ((Finset.sum_le_card_nsmul _ _ _ hin).trans (le_of_eq ?_))
    rw [Finset.card_range, nsmul_eq_mul]
    ring
  refine ⟨hgf, ?_⟩
  have := spectrum_near hgf
  convert this using 3
  rw [Complex.im_sum]
  simp only [weight_lorentz]
  rw [Finset.sum_neg_distrib, neg_neg, Finset.sum_div]
  refine Finset.sum_congr rfl fun l _ => ?_
  ring

theorem norm2_le_one_of {N : ℕ} {a : Vec N} (h : Lanczos.vdot a a = 1) : norm2 a = 1 := by
  rw [vdot_self] at h
  have h1 : norm2 a ^ 2 = 1 := by exact_mod_cast h
  have h2 : 0 ≤ norm2 a := Real.sqrt_nonneg _
  nlinarith

/-- `S^-` does not increase the norm. -/
theorem norm2_lowered (GS : Vec (2 ^ n)) {i : ℕ} (hi : i < n) : norm2 (lowered n GS i) ≤ norm2 GS := by
  have hadj : ∀ (M : Matrix (Fin (2 ^ n)) (Fin (2 ^ n)) ℂ) (v : Vec (2 ^ n)),
      Lanczos.vdot (M *ᵥ v) (M *ᵥ v) = Lanczos.vdot v ((Mᴴ * M) *ᵥ v) := by
    intro M v
    have := vdot_conjTranspose Mᴴ v (M *ᵥ v)
    rw [conjTranspose_conjTranspose] at this
    rw [← mulVec_mulVec, this]
  obtain ⟨a1, a2, -, -, -⟩ := spinHalf_adj
  have hsum : spinHalf .p * spinHalf .m + spinHalf .m * spinHalf .p = 1 := by
    ext r c
    fin_cases r <;> fin_cases c <;> simp [spinHalf]
  have key : Lanczos.vdot (siteOp n i (spinHalf .m) *ᵥ GS) (siteOp n i (spinHalf .m) *ᵥ GS) +
      Lanczos.vdot (siteOp n i (spinHalf .p) *ᵥ GS) (siteOp n i (spinHalf .p) *ᵥ GS) = Lanczos.vdot GS GS := by
    rw [hadj, hadj, ← vdot_add_right, ← add_mulVec, siteOp_conjTranspose, siteOp_conjTranspose, a1, a2,
      siteOp_mul n i hi, siteOp_mul n i hi, ← siteOp_add, hsum, siteOp_one n i hi, one_mulVec]
  rw [vdot_self, vdot_self, vdot_self] at key
  have h1 : norm2 (siteOp n i (spinHalf .m) *ᵥ GS) ^ 2 + norm2 (siteOp n i (spinHalf .p) *ᵥ GS) ^ 2 = norm2 GS ^ 2 := by
    exact_mod_cast key
  have h2 : 0 ≤ norm2 GS := Real.sqrt_nonneg _
  exact le_of_sq_le_sq (by unfold lowered; nlinarith [sq_nonneg (norm2 (siteOp n i (spinHalf .p) *ᵥ GS))]) h2

theorem spinGfsLanczos_ok (h : Sites zoom coordOf n sid) (hn : 1 ≤ n) {HM : Matrix (Fin (2 ^ n)) (Fin (2 ^ n)) ℂ}
    (hH : HM.IsHermitian) {GE eta thr : ℝ} (ht : 0 ≤ thr) (heta : eta ≠ 0) {GS : Vec (2 ^ n)}
    (hnorm : Lanczos.vdot GS GS = 1) {K : ℤ} (hK : ((2 ^ n : ℕ) : ℤ) < K) {omegas : List ℝ} (hom : omegas ≠ [])
    (hgood : ∀ i < n, thr < norm2 (lowered n GS i)) (g : Garbage omegas.length) :
    ∃ D, spinGfsLanczos zoom thr K HM (loopOps n sid GS) GE omegas eta g = .ok D ∧
      CloseSpin n sid HM GE GS omegas eta (thr / eta ^ 2) D := by
  have hnGS := norm2_le_one_of hnorm
  have hvec : ∀ i < n, (excitedDict (loopOps n sid GS) (opSm sid i)).getD 0 = lowered n GS i := by
    intro i hi
    rw [excited_opSm h GS hi, Option.getD_some]
  have hAs := loopOps_p (sid := sid) GS
  have hBs := loopOps_m (sid := sid) GS
  unfold spinGfsLanczos
  generalize ((loopOps n sid GS).map fun p => p.1) = As at hAs ⊢
  generalize ((loopOps n sid GS).map fun p => p.2.1) = Bs at hBs ⊢
  dsimp only
  cases hm : multiKrylov thr HM Bs (fun key => (excitedDict (loopOps n sid GS) key).getD 0) K with
  | error e =>
    obtain ⟨a, ha, hle⟩ := (C57_multi (t := thr) (M := HM)
      (vectors := fun key => (excitedDict (loopOps n sid GS) key).getD 0) (K := K) (keys := Bs)).2.1.1 ⟨e, hm⟩
    rw [hBs] at ha
    obtain ⟨i, hi, rfl⟩ := List.mem_map.1 ha
    have hi := List.mem_range.1 hi
    rw [hvec i hi] at hle
    exact absurd (hgood i hi) (not_lt.2 hle)
  | ok reps =>
    have hs : ∀ omega, ∀ i < n, ∀ j < n, ∃ v, lanczosSingle (spinDaggerOf zoom) omega (opSp sid i) (opSm sid j) GE
        (toDict Bs reps) eta "-" = .ok v ∧ ‖v - spinCorr n HM GE GS omega eta i j‖ ≤ thr / eta ^ 2 := by
      intro omega i hi j hj
      have hu := shifted_isUnit hH (omega := omega) (GE := GE) heta "-"
      have hmem : ∀ i < n, opSm sid i ∈ Bs := fun i hi => by
        rw [hBs]; exact List.mem_map_of_mem (List.mem_range.2 hi)
      have := lanczos_entry (dagger := spinDaggerOf zoom) hH ht heta (d := 2 ^ n) Nat.one_le_two_pow hK hm
        (A := opSp sid i) (B := opSm sid j) (hmem j hj) (by rw [dagger_opSp h hi]; exact hmem i hi)
        (W := ⊤) (Submodule.mem_top) (fun _ _ => Submodule.mem_top)
        (by rw [finrank_top]; simp [Vec])
        (by rw [hvec j hj, ← hnGS]; exact norm2_lowered GS hj)
        (by rw [dagger_opSp h hi, hvec i hi, ← hnGS]; exact norm2_lowered GS hi) (P := toDict Bs reps) rfl omega GE "-"
        (x := (shifted (zOf omega eta) GE HM "-")⁻¹ *ᵥ lowered n GS j)
        (by rw [mulVec_mulVec, mul_nonsing_inv _ hu, one_mulVec, hvec j hj])
      rw [dagger_opSp h hi, hvec i hi] at this
      exact this
    obtain ⟨c1, c2⟩ := C59_lanczos_multiple (dagger := spinDaggerOf zoom) (omegas := omegas) (As := As) (Bs := Bs) (GE := GE)
      (proj := toDict Bs reps) (eta := eta) (sign := "-") (struct := "dict") (g _ _)
    obtain ⟨r, hr⟩ := c2 (by
        rw [hAs]
        intro h0
        have := congrArg List.length h0
        simp at this
        omega) hom (by
      intro omega _ A hA B hB
      rw [hAs] at hA
      rw [hBs] at hB
      obtain ⟨i, hi, rfl⟩ := List.mem_map.1 hA
      obtain ⟨j, hj, rfl⟩ := List.mem_map.1 hB
      obtain ⟨v, hv, -⟩ := hs omega i (List.mem_range.1 hi) j (List.mem_range.1 hj)
      exact ⟨v, hv⟩)
    obtain ⟨t1, t2⟩ := c1 r hr
    simp only [bind, Except.bind]
    rw [hr]
    exact spinDict_close h hAs hBs t1 (t2.2 rfl) fun omega _ i hi j hj => hs omega i hi j hj

theorem spinGfsLanczos_error (h : Sites zoom coordOf n sid) {HM : Matrix (Fin (2 ^ n)) (Fin (2 ^ n)) ℂ}
    {GE eta thr : ℝ} {GS : Vec (2 ^ n)} {K : ℤ} {omegas : List ℝ} {i : ℕ} (hi : i < n)
    (hbad : norm2 (lowered n GS i) ≤ thr) (g : Garbage omegas.length) :
    spinGfsLanczos zoom thr K HM (loopOps n sid GS) GE omegas eta g = .error .valueError := by
  have h2 := (C57_multi (t := thr) (M := HM) (vectors := fun key => (excitedDict (loopOps n sid GS) key).getD 0)
    (K := K) (keys := (loopOps n sid GS).map fun p => p.2.1)).2
  obtain ⟨e, he⟩ := h2.1.2 ⟨opSm sid i, by
    rw [loopOps_m]; exact List.mem_map_of_mem (List.mem_range.2 hi), by rw [excited_opSm h GS hi]; exact hbad⟩
  unfold spinGfsLanczos
  dsimp only
  rw [he, h2.2 e he]
  rfl

end

end Verif.Demo
