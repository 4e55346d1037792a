import Verif.Proofs.DemoLanczos
import Verif.Spec.Occupation
/-!
# Lemmas for C87: norms of the excited states, and one call of the Lanczos solvers
-/

namespace Verif.Demo

open Latt LDB Spec Matrix Lanczos GF

section

variable {B0 Bp Bh : List ℕ}

theorem number_ket (q : ℕ) (T : Finset ℕ) : (create q * annihilate q) (ket T) = if q ∈ T then ket T else 0 := by
  rw [Module.End.mul_apply, annihilate_ket]
  split
  · next h =>
    rw [map_smul, create_ket, if_neg (Finset.notMem_erase _ _), jwSign_erase_self, Finset.insert_erase h, smul_smul,
      jwSign_sq, one_smul]
  · exact map_zero _

theorem norm_annihilate (hh : Bh.Nodup) (h0 : B0.Nodup) {q : ℕ} (hA : MapsTo (annihilate q) B0 Bh)
    (GS : Vec B0.length) : norm2 (opMat2 Bh B0 (annihilate q) *ᵥ GS) ^ 2 = occupation B0 GS q := by
  have h1 : vdot (opMat2 Bh B0 (annihilate q) *ᵥ GS) (opMat2 Bh B0 (annihilate q) *ᵥ GS) =
      vdot GS (opMat2 B0 B0 (create q * annihilate q) *ᵥ GS) := by
    rw [← opMat2_mul hh hA, ← Matrix.mulVec_mulVec, ← opMat2_adj (isAdj_create_annihilate q).symm,
      vdot_conjTranspose]
  have h2 : ∀ r, (opMat2 B0 B0 (create q * annihilate q) *ᵥ GS) r = if q ∈ occ B0[r] then GS r else 0 := by
    intro r
    change ∑ c, opMat2 B0 B0 (create q * annihilate q) r c * GS c = _
    rw [Finset.sum_eq_single r]
    · rw [opMat2_apply]
      unfold matrixElement
      rw [number_ket]
      split
      · rw [ket, Finsupp.single_eq_same, one_mul]
      · rw [Finsupp.zero_apply, zero_mul]
    · intro c _ hc
      rw [opMat2_apply]
      unfold matrixElement
      rw [number_ket]
      split
      · rw [ket, Finsupp.single_apply, if_neg, zero_mul]
        intro he
        exact hc (Fin.ext ((List.Nodup.getElem_inj_iff h0).1 (occ_injective he)))
      · rw [Finsupp.zero_apply, zero_mul]
    · intro h
      exact absurd (Finset.mem_univ r) h
  rw [vdot_self] at h1
  have h3 : vdot GS (opMat2 B0 B0 (create q * annihilate q) *ᵥ GS) = ((occupation B0 GS q : ℝ) : ℂ) := by
    unfold vdot occupation
    rw [Complex.ofReal_sum]
    refine Finset.sum_congr rfl fun r _ => ?_
    rw [h2]
    split
    · rw [Complex.normSq_eq_conj_mul_self]; rfl
    · rw [mul_zero, Complex.ofReal_zero]
  rw [h3] at h1
  exact_mod_cast h1

theorem norm_create (hp : Bp.Nodup) (hh : Bh.Nodup) (h0 : B0.Nodup) {q : ℕ} (hC : MapsTo (create q) B0 Bp)
    (hA : MapsTo (annihilate q) B0 Bh)
    {GS : Vec B0.length} (hnorm : vdot GS GS = 1) :
    norm2 (opMat2 Bp B0 (create q) *ᵥ GS) ^ 2 = 1 - occupation B0 GS q := by
  have h1 : vdot (opMat2 Bp B0 (create q) *ᵥ GS) (opMat2 Bp B0 (create q) *ᵥ GS) =
      vdot GS (opMat2 B0 B0 (annihilate q * create q) *ᵥ GS) := by
    rw [← opMat2_mul hp hC, ← Matrix.mulVec_mulVec, ← opMat2_adj (isAdj_create_annihilate q), vdot_conjTranspose]
  have h2 : vdot (opMat2 Bh B0 (annihilate q) *ᵥ GS) (opMat2 Bh B0 (annihilate q) *ᵥ GS) =
      vdot GS (opMat2 B0 B0 (create q * annihilate q) *ᵥ GS) := by
    rw [← opMat2_mul hh hA, ← Matrix.mulVec_mulVec, ← opMat2_adj (isAdj_create_annihilate q).symm,
      vdot_conjTranspose]
  have h3 : annihilate q * create q + create q * annihilate q = 1 := by
    have := annihilate_create q q
    rwa [if_pos rfl] at this
  have h4 : vdot (opMat2 Bp B0 (create q) *ᵥ GS) (opMat2 Bp B0 (create q) *ᵥ GS) +
      vdot (opMat2 Bh B0 (annihilate q) *ᵥ GS) (opMat2 Bh B0 (annihilate q) *ᵥ GS) = 1 := by
    rw [h1, h2, ← vdot_add_right, ← Matrix.add_mulVec, ← map_add, h3, opMat2_one h0, Matrix.one_mulVec, hnorm]
  rw [vdot_self, vdot_self, norm_annihilate hh h0 hA] at h4
  have h5 : norm2 (opMat2 Bp B0 (create q) *ᵥ GS) ^ 2 + occupation B0 GS q = 1 := by exact_mod_cast h4
  linarith

theorem occupation_nonneg (GS : Vec B0.length) (q : ℕ) : 0 ≤ occupation B0 GS q :=
  Finset.sum_nonneg fun r _ => by split <;> first | exact Complex.normSq_nonneg _ | exact le_rfl

theorem norm_le_one {N : ℕ} {v : Vec N} {x : ℝ} (h : norm2 v ^ 2 = x) (hx : x ≤ 1) : norm2 v ≤ 1 := by
  rw [← h] at hx
  exact (sq_le_one_iff₀ (norm2_nonneg v)).1 hx

end

/-- The Lanczos Green function depends on the dict through one entry only. -/
theorem lanczosSingle_congr {κ : Type} [DecidableEq κ] {dagger : κ → κ} {omega : ℝ} {A B : κ} {GE eta : ℝ}
    {P Q : κ → Option (PRep κ)} {sign : String} (h : P B = Q B) :
    lanczosSingle dagger omega A B GE P eta sign = lanczosSingle dagger omega A B GE Q eta sign := by
  have h1 : getItem P B = getItem Q B := by unfold getItem; rw [h]
  unfold lanczosSingle
  rw [h1]

/-- One value of the Lanczos solver against the exact one. -/
theorem lanczos_entry {N : ℕ} {κ : Type} [DecidableEq κ] {dagger : κ → κ} {HM : Matrix (Fin N) (Fin N) ℂ}
    (hH : HM.IsHermitian) {thr : ℝ} (ht : 0 ≤ thr) {eta : ℝ} (heta : eta ≠ 0) {K : ℤ} {d : ℕ} (hd : 1 ≤ d) (hdK : (d : ℤ) < K)
    {keys : List κ} {vectors : κ → Vec N} {reps : List (Rep κ)} (h : multiKrylov thr HM keys vectors K = .ok reps)
    {A B : κ} (hB : B ∈ keys) (hA : dagger A ∈ keys) {W : Submodule ℂ (Vec N)} (hv : vectors B ∈ W)
    (hW : ∀ x ∈ W, HM *ᵥ x ∈ W) (hWd : Module.finrank ℂ W ≤ d) (hnB : norm2 (vectors B) ≤ 1)
    (hnA : norm2 (vectors (dagger A)) ≤ 1) {P : κ → Option (PRep κ)} (hP : P B = toDict keys reps B) (omega GE : ℝ)
    (sign : String) {x : Vec N} (hx : shifted (zOf omega eta) GE HM sign *ᵥ x = vectors B) :
    ∃ g, lanczosSingle dagger omega A B GE P eta sign = .ok g ∧
      ‖g - vdot (vectors (dagger A)) x‖ ≤ thr / eta ^ 2 := by
  obtain ⟨rep, gL, gE, hrep, hL, hE, -, -, hbound, -⟩ := C58_lanczos_equals_exact (dagger := dagger) (GE := GE)
    (sign := sign) hH ht heta (by omega : 0 < K) h omega hB hA
  have hdim := krylov_dim_le hH ht hrep hv hW hWd
  refine ⟨gL, by rw [lanczosSingle_congr hP]; exact hL, ?_⟩
  obtain ⟨b, a, x', hb, ha, hx', rfl⟩ := exactSingle_ok_iff.1 hE
  rw [if_pos hB] at hb
  rw [if_pos hA] at ha
  cases hb
  cases ha
  have hxx : x' = x := by
    have h1 := (solve_ok_iff.1 hx').2
    have hu := (solve_ok_iff.1 hx').1
    have h2 := congrArg (fun y => (shifted (zOf omega eta) GE HM sign)⁻¹ *ᵥ y) (h1.trans hx.symm)
    rwa [Matrix.mulVec_mulVec, Matrix.mulVec_mulVec, Matrix.nonsing_inv_mul _ hu, Matrix.one_mulVec,
      Matrix.one_mulVec] at h2
  rw [hxx] at hbound
  refine (hbound (.inl (by omega))).trans ?_
  refine div_le_div_of_nonneg_right ?_ (sq_nonneg _)
  calc thr * norm2 (vectors (dagger A)) * norm2 (vectors B) ≤ thr * 1 * 1 := by
        refine mul_le_mul (mul_le_mul_of_nonneg_left hnA ht) hnB (norm2_nonneg _) ?_
        exact mul_nonneg ht zero_le_one
    _ = thr := by ring

theorem toDict_none {κ : Type} [DecidableEq κ] {keys : List κ} {reps : List (Rep κ)} {B : κ} (hB : B ∉ keys) :
    toDict keys reps B = none := by
  unfold toDict
  refine applyWrites_of_not_mem _ _ _ ?_
  intro w hw he
  obtain ⟨p, hp, rfl⟩ := List.mem_map.1 hw
  dsimp only at he
  subst he
  exact hB (List.of_mem_zip hp).1

section

variable {zoom : ℤ} {coordOf : ℝ → Coord} {n d : ℕ} {st : ℕ → ℕ → StateID} {Ts : List ℕ} {H : Module.End ℂ Fock}
  {B0 Bp Bh : List ℕ}

/-- `RGFSolverLanczosMultiple` on the output of two calls of `MultiKrylov`. -/
theorem rgfLanczos_ok (h : States zoom coordOf n st) (hn : 1 ≤ n) (hne : Ts ≠ [])
    (h0 : B0.Nodup) (hp : Bp.Nodup) (hh : Bh.Nodup) (hadj : IsAdj H H)
    (hC : ∀ s ∈ Ts, ∀ j < n, MapsTo (create (s * n + j)) B0 Bp)
    (hA : ∀ s ∈ Ts, ∀ j < n, MapsTo (annihilate (s * n + j)) B0 Bh) {GE : ℝ} {GS : Vec B0.length}
    (hWC : ∀ p ∈ sites Ts n, SmallKrylov (opMat Bp H) (opMat2 Bp B0 (create (p.1 * n + p.2)) *ᵥ GS) d)
    (hWA : ∀ p ∈ sites Ts n, SmallKrylov (opMat Bh H) (opMat2 Bh B0 (annihilate (p.1 * n + p.2)) *ᵥ GS) d) (hnorm : vdot GS GS = 1) {eta thr : ℝ}
    (ht : 0 ≤ thr) (heta : eta ≠ 0) {K : ℤ} (hd : 1 ≤ d) (hK : (d : ℤ) < K) {omegas : List ℝ} (hom : omegas ≠ [])
    {keysP keysH : List AoC} {vecP : AoC → Vec Bp.length} {vecH : AoC → Vec Bh.length} {repsP repsH : List (Rep AoC)}
    (hkP : multiKrylov thr (opMat Bp H) keysP vecP K = .ok repsP)
    (hkH : multiKrylov thr (opMat Bh H) keysH vecH K = .ok repsH)
    (hmP : ∀ p ∈ sites Ts n, opC st p ∈ keysP) (hmH : ∀ p ∈ sites Ts n, opA st p ∈ keysH)
    (hvP : ∀ p ∈ sites Ts n, vecP (opC st p) = opMat2 Bp B0 (create (p.1 * n + p.2)) *ᵥ GS)
    (hvH : ∀ p ∈ sites Ts n, vecH (opA st p) = opMat2 Bh B0 (annihilate (p.1 * n + p.2)) *ᵥ GS)
    {P : AoC → Option (PRep AoC)} (hPP : ∀ p ∈ sites Ts n, P (opC st p) = toDict keysP repsP (opC st p))
    (hPH : ∀ p ∈ sites Ts n, P (opA st p) = toDict keysH repsH (opA st p)) (g : Garbage omegas.length)
    {As Cs : List AoC} (hAs : As = (sites Ts n).map (opA st)) (hCs : Cs = (sites Ts n).map (opC st)) :
    ∃ D, rgfLanczosMultiple (daggerOf zoom) omegas As Cs
        GE P eta "+" "dict" (g _ _) (g _ _) (fun p k => g _ _ (p.1, p.2, k)) = .ok (.dict D) ∧
      (∀ A C, D (A, C) ≠ none → (∃ p ∈ sites Ts n, A = opA st p) ∧ ∃ q ∈ sites Ts n, C = opC st q) ∧
      ∀ wi : Fin omegas.length, ∃ (x : ℕ × ℕ → Vec Bp.length) (y : ℕ × ℕ → Vec Bh.length),
        (∀ p ∈ sites Ts n, shifted (zOf (omegas.get wi) eta) GE (opMat Bp H) "-" *ᵥ x p =
          opMat2 Bp B0 (create (p.1 * n + p.2)) *ᵥ GS) ∧
        (∀ p ∈ sites Ts n, shifted (zOf (omegas.get wi) eta) GE (opMat Bh H) "+" *ᵥ y p =
          opMat2 Bh B0 (annihilate (p.1 * n + p.2)) *ᵥ GS) ∧
        ∀ p ∈ sites Ts n, ∀ q ∈ sites Ts n, ∃ row, D (opA st p, opC st q) = some row ∧
          ‖row wi - (vdot (opMat2 Bp B0 (create (p.1 * n + p.2)) *ᵥ GS) (x q) +
            vdot (opMat2 Bh B0 (annihilate (q.1 * n + q.2)) *ᵥ GS) (y p))‖ ≤ 2 * (thr / eta ^ 2) := by
  set l := sites Ts n with hl
  have hps := (opMat_adj hadj : (opMat Bp H).IsHermitian)
  have hhs := (opMat_adj hadj : (opMat Bh H).IsHermitian)
  have hnC : ∀ p ∈ l, norm2 (opMat2 Bp B0 (create (p.1 * n + p.2)) *ᵥ GS) ≤ 1 := by
    intro p hp'
    have hm := mem_sites.1 hp'
    refine norm_le_one (norm_create hp hh h0 (hC _ hm.1 _ hm.2) (hA _ hm.1 _ hm.2) hnorm) ?_
    have := occupation_nonneg GS (p.1 * n + p.2)
    linarith
  have hnA : ∀ p ∈ l, norm2 (opMat2 Bh B0 (annihilate (p.1 * n + p.2)) *ᵥ GS) ≤ 1 := by
    intro p hp'
    have hm := mem_sites.1 hp'
    refine norm_le_one (norm_annihilate hh h0 (hA _ hm.1 _ hm.2) GS) ?_
    have h1 := norm_create hp hh h0 (hC _ hm.1 _ hm.2) (hA _ hm.1 _ hm.2) hnorm
    have h2 := sq_nonneg (norm2 (opMat2 Bp B0 (create (p.1 * n + p.2)) *ᵥ GS))
    linarith
  have hsol : ∀ omega : ℝ, ∃ (x : ℕ × ℕ → Vec Bp.length) (y : ℕ × ℕ → Vec Bh.length),
      (∀ p ∈ l, shifted (zOf omega eta) GE (opMat Bp H) "-" *ᵥ x p =
        opMat2 Bp B0 (create (p.1 * n + p.2)) *ᵥ GS) ∧
      ∀ p ∈ l, shifted (zOf omega eta) GE (opMat Bh H) "+" *ᵥ y p =
        opMat2 Bh B0 (annihilate (p.1 * n + p.2)) *ᵥ GS := by
    intro omega
    choose x hx using fun p : ℕ × ℕ => solve_exists (shifted_isUnit hps (omega := omega) (GE := GE) heta "-")
      (opMat2 Bp B0 (create (p.1 * n + p.2)) *ᵥ GS)
    choose y hy using fun p : ℕ × ℕ => solve_exists (shifted_isUnit hhs (omega := omega) (GE := GE) heta "+")
      (opMat2 Bh B0 (annihilate (p.1 * n + p.2)) *ᵥ GS)
    exact ⟨x, y, fun p _ => (solve_ok_iff.1 (hx p)).2, fun p _ => (solve_ok_iff.1 (hy p)).2⟩
  have hsingle : ∀ omega, ∀ p ∈ l, ∀ q ∈ l, ∀ x y,
      shifted (zOf omega eta) GE (opMat Bp H) "-" *ᵥ x =
        opMat2 Bp B0 (create (q.1 * n + q.2)) *ᵥ GS →
      shifted (zOf omega eta) GE (opMat Bh H) "+" *ᵥ y =
        opMat2 Bh B0 (annihilate (p.1 * n + p.2)) *ᵥ GS →
      ∃ v, rgfLanczosSingle (daggerOf zoom) omega (opA st p) (opC st q) GE P eta "+" = .ok v ∧
        ‖v - (vdot (opMat2 Bp B0 (create (p.1 * n + p.2)) *ᵥ GS) x +
          vdot (opMat2 Bh B0 (annihilate (q.1 * n + q.2)) *ᵥ GS) y)‖ ≤ 2 * (thr / eta ^ 2) := by
    intro omega p hp' q hq' x y hx hy
    have mp := mem_sites.1 hp'
    have mq := mem_sites.1 hq'
    have dA := dagger_opA h mp.2
    have dC := dagger_opC h mq.2
    obtain ⟨W1, hv1, hi1, hf1⟩ := hWC q hq'
    obtain ⟨W2, hv2, hi2, hf2⟩ := hWA p hp'
    obtain ⟨g1, hg1, hb1⟩ := lanczos_entry (dagger := daggerOf zoom) hps ht heta hd hK hkP (A := opA st p)
      (B := opC st q) (hmP q hq') (by rw [dA]; exact hmP p hp') (W := W1)
      (by rw [hvP q hq']; exact hv1) hi1 hf1 (by rw [hvP q hq']; exact hnC q hq') (by rw [dA, hvP p hp']; exact hnC p hp')
      (hPP q hq') omega GE "-" (x := x) (by rw [hvP q hq']; exact hx)
    obtain ⟨g2, hg2, hb2⟩ := lanczos_entry (dagger := daggerOf zoom) hhs ht heta hd hK hkH (A := opC st q)
      (B := opA st p) (hmH p hp') (by rw [dC]; exact hmH q hq') (W := W2)
      (by rw [hvH p hp']; exact hv2) hi2 hf2 (by rw [hvH p hp']; exact hnA p hp') (by rw [dC, hvH q hq']; exact hnA q hq')
      (hPH p hp') omega GE "+" (x := y) (by rw [hvH p hp']; exact hy)
    refine ⟨g1 + g2, ?_, ?_⟩
    · unfold rgfLanczosSingle
      rw [hg1]
      simp only [bind, Except.bind]
      rw [hg2]
      simp only [if_true]
      rfl
    · rw [dA, hvP p hp'] at hb1
      rw [dC, hvH q hq'] at hb2
      rw [add_sub_add_comm]
      refine (norm_add_le _ _).trans ?_
      linarith
  have hlne : l ≠ [] := by
    intro h1
    obtain ⟨s, hs⟩ := List.exists_mem_of_ne_nil _ hne
    have : (s, 0) ∈ l := mem_sites.2 ⟨hs, by omega⟩
    rw [h1] at this
    cases this
  subst hAs hCs
  obtain ⟨hr1, hr2⟩ := C59_rgf_lanczos_multiple (dagger := daggerOf zoom) (omegas := omegas) (As := l.map (opA st))
    (Bs := l.map (opC st)) (GE := GE) (proj := P) (eta := eta)
    (sign := "+") (struct := "dict") (g _ _) (g _ _) (fun p k => g _ _ (p.1, p.2, k))
  obtain ⟨r, hr⟩ := hr2 (by simpa using hlne) (by simpa using hlne) hom (by
    intro omega _ A hA C hC
    obtain ⟨p, hp', rfl⟩ := List.mem_map.1 hA
    obtain ⟨q, hq', rfl⟩ := List.mem_map.1 hC
    obtain ⟨x, y, hx, hy⟩ := hsol omega
    obtain ⟨v, hv, -⟩ := hsingle omega p hp' q hq' _ _ (hx q hq') (hy p hp')
    exact ⟨v, hv⟩)
  obtain ⟨htab, hdict⟩ := hr1 r hr
  cases r with
  | array G => exact absurd (hdict.2 rfl) (by simp [GFs.IsDict])
  | dict D =>
    refine ⟨D, hr, fun A C hAC => ?_, fun wi => ?_⟩
    · obtain ⟨p, hp', rfl⟩ := List.mem_map.1 ((htab A C).1.1 hAC).1
      obtain ⟨q, hq', rfl⟩ := List.mem_map.1 ((htab _ C).1.1 hAC).2
      exact ⟨⟨p, hp', rfl⟩, q, hq', rfl⟩
    obtain ⟨x, y, hx, hy⟩ := hsol (omegas.get wi)
    refine ⟨x, y, hx, hy, fun p hp' q hq' => ?_⟩
    obtain ⟨h1, h2⟩ := htab (opA st p) (opC st q)
    obtain ⟨row, hrow⟩ := Option.ne_none_iff_exists'.1 (h1.2
      ⟨List.mem_map.2 ⟨p, hp', rfl⟩, List.mem_map.2 ⟨q, hq', rfl⟩⟩)
    refine ⟨row, hrow, ?_⟩
    have h3 := h2 row hrow wi
    change rgfLanczosSingle _ _ _ _ _ _ _ _ = _ at h3
    obtain ⟨v, hv, hb⟩ := hsingle _ p hp' q hq' _ _ (hx q hq') (hy p hp')
    rw [hv] at h3
    rw [← Except.ok.inj h3]
    exact hb

end

end Verif.Demo
