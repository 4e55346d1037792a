import Verif.Proofs.HubbardBand
import Verif.Proofs.HubbardSpace
import Verif.Proofs.HubbardCpt
/-!
# Lemmas for C92: the sectors of HubbardChain.py
-/

namespace Verif.Demo

open Latt LDB Spec Matrix Lanczos GF Cpt

section

variable {n : ℕ}

/-- A basis of the script. -/
structure SpinBasis (n Nup Ndown : ℕ) (B : List ℕ) : Prop where
  base : baseVectors (spinSpecs n Nup Ndown) = .ok B
  ne : B ≠ []
  asc : B.Pairwise (· < ·)
  hop : HopClosed n 2 B
  pre : (spinSpecs n Nup Ndown).mapM preprocess =
    .ok [((List.range n).map fun i : ℕ => n + i, HNum.int Nup), (List.range n, HNum.int Ndown)]
  rep : NoRepeats [((List.range n).map fun i : ℕ => n + i, HNum.int Nup), (List.range n, HNum.int Ndown)]

variable {Nup Ndown Nup' Ndown' : ℕ} {B B' : List ℕ}

theorem SpinBasis.nodup (h : SpinBasis n Nup Ndown B) : B.Nodup := h.asc.imp fun h => h.ne

theorem SpinBasis.maps (h : SpinBasis n Nup Ndown B) (t U : ℝ) : MapsTo (hubbardHamiltonian n t U) B B :=
  mapsTo_hubbard h.hop t U

theorem SpinBasis.mem_iff (h : SpinBasis n Nup Ndown B) (k : ℕ) : k ∈ B ↔
    AllowedKet [((List.range n).map fun i : ℕ => n + i, HNum.int Nup), (List.range n, HNum.int Ndown)] k :=
  C14_base_vectors_exact _ .array true B h.base _ h.pre h.rep k

theorem SpinBasis.disjoint (h : SpinBasis n Nup Ndown B) (h' : SpinBasis n Nup' Ndown' B') (hne : Nup ≠ Nup') :
    ∀ k ∈ B, k ∉ B' := by
  intro k hk hk'
  rw [h.mem_iff] at hk
  rw [h'.mem_iff] at hk'
  have h1 := hk.2 _ List.mem_cons_self Nup rfl (by omega)
  have h2 := hk'.2 _ List.mem_cons_self Nup' rfl (by omega)
  dsimp only at h1 h2
  rw [h1] at h2
  exact hne (by exact_mod_cast h2)

theorem SpinBasis.length (h : SpinBasis n Nup Ndown B) : B.length = n.choose Nup * n.choose Ndown := by
  obtain ⟨dims, h1, h2⟩ := C16_dimension _ _ _ B h.base _ h.pre
  obtain ⟨d, e, rfl⟩ : ∃ d e, dims = [d, e] := by
    cases h2 with
    | cons _ h => cases h with | cons _ h => cases h; exact ⟨_, _, rfl⟩
  have hd : d = n.choose Nup ∧ e = n.choose Ndown := by
    cases h2 with
    | cons h h' => cases h' with
      | cons h' _ => exact ⟨by simpa using h.1 Nup rfl, by simpa using h'.1 Ndown rfl⟩
  rw [h1, hd.1, hd.2]
  simp

theorem SpinBasis.full (h : SpinBasis n Nup Ndown B) : ∀ k ∈ B, k ∈ fullBasis n := by
  intro k hk
  rw [h.mem_iff] at hk
  unfold fullBasis
  rw [List.mem_range]
  refine Nat.lt_pow_two_of_testBit _ fun i hi => ?_
  by_contra hb
  obtain ⟨s, hs, hm⟩ := hk.1 i (by simpa using hb)
  simp only [List.mem_cons, List.not_mem_nil, or_false] at hs
  rcases hs with rfl | rfl
  · obtain ⟨a, ha, he⟩ := List.mem_map.1 hm
    have := List.mem_range.1 ha
    omega
  · have := List.mem_range.1 hm
    omega

/-- The particle number of a spin changes by one. -/
theorem SpinBasis.step (h : SpinBasis n Nup Ndown B) (h' : SpinBasis n Nup' Ndown' B') (o : Otype) (s : Fin 2) {j : ℕ} (hj : j < n)
    (e1 : (Nup' : ℤ) + (if o = .annihilation ∧ s = 1 then 1 else 0) = Nup + if o = .creation ∧ s = 1 then 1 else 0)
    (e0 : (Ndown' : ℤ) + (if o = .annihilation ∧ s = 0 then 1 else 0) = Ndown + if o = .creation ∧ s = 0 then 1 else 0) :
    MapsTo (fockOf o (s * n + j)) B B' := by
  have hupM : ((s : ℕ) * n + j ∈ (List.range n).map fun i : ℕ => n + i) ↔ s = 1 := by
    rw [List.mem_map]
    constructor
    · rintro ⟨a, ha, he⟩
      fin_cases s
      · simp at he
        omega
      · rfl
    · rintro rfl
      exact ⟨j, List.mem_range.2 hj, by simp⟩
  have hdnM : (s : ℕ) * n + j ∈ List.range n ↔ s = 0 := by
    rw [List.mem_range]
    constructor
    · intro he
      fin_cases s
      · rfl
      · simp at he
    · rintro rfl
      simpa using hj
  refine mapsTo_single h.base h.pre h.rep h'.base h'.pre h'.rep o ?_ (by simp) ?_
  · fin_cases s
    · exact ⟨_, List.mem_cons_of_mem _ (List.mem_singleton_self _), hdnM.2 rfl⟩
    · exact ⟨_, List.mem_cons_self, hupM.2 rfl⟩
  · intro s' hs' M hM _
    simp only [List.mem_cons, List.not_mem_nil, or_false] at hs'
    rcases hs' with rfl | rfl
    · refine ⟨Nup, by omega, by simp, ?_⟩
      cases hM
      simp only [hupM]
      exact e1
    · refine ⟨Ndown, by omega, by simp, ?_⟩
      cases hM
      simp only [hdnM]
      exact e0

/-- The dict of one spin holds the entries of the Green function of the cluster. -/
theorem sector_green {H : Module.End ℂ Fock} (hH : IsAdj H H) {E : ℝ} {B0 : List ℕ} {Bp Bh : Fin 2 → List ℕ} (h0 : B0.Nodup)
    (hp : ∀ s, (Bp s).Nodup) (hh : ∀ s, (Bh s).Nodup) (hHp : ∀ s, MapsTo H (Bp s) (Bp s)) (hHh : ∀ s, MapsTo H (Bh s) (Bh s))
    (hC : ∀ s : Fin 2, ∀ j < n, MapsTo (create (s * n + j)) B0 (Bp s))
    (hA : ∀ s : Fin 2, ∀ j < n, MapsTo (annihilate (s * n + j)) B0 (Bh s))
    (dp : ∀ s s', s ≠ s' → ∀ k ∈ Bp s, k ∉ Bp s') (dh : ∀ s s', s ≠ s' → ∀ k ∈ Bh s, k ∉ Bh s')
    {GS : Vec B0.length} {z : ℂ} (hz : z.im ≠ 0) {x : ∀ s, ℕ → Vec (Bp s).length} {y : ∀ s, ℕ → Vec (Bh s).length}
    (hx : ∀ s : Fin 2, ∀ j < n, GF.shifted z E (opMat (Bp s) H) "-" *ᵥ x s j = opMat2 (Bp s) B0 (create (s * n + j)) *ᵥ GS)
    (hy : ∀ s : Fin 2, ∀ j < n, GF.shifted z E (opMat (Bh s) H) "+" *ᵥ y s j = opMat2 (Bh s) B0 (annihilate (s * n + j)) *ᵥ GS)
    {G : Matrix (Fin 2 × Fin n) (Fin 2 × Fin n) ℂ} (hG : IsClusterGreen n H E (stateOf B0 GS) z G) :
    (∀ s i j, G (s, i) (s, j) = vdot (opMat2 (Bp s) B0 (create (s * n + i)) *ᵥ GS) (x s j) +
      vdot (opMat2 (Bh s) B0 (annihilate (s * n + j)) *ᵥ GS) (y s i)) ∧
    ∀ s s' i j, s ≠ s' → G (s, i) (s', j) = 0 := by
  obtain ⟨X, Y, hX, hY, hG⟩ := hG
  have eX : ∀ s (j : Fin n), X (s, j) = stateOf (Bp s) (x s j) := fun s j =>
    green_x_unique hH hz (hX (s, j)) (green_x_state h0 (hp s) (hHp s) (hC s j j.2) (hx s j j.2))
  have eY : ∀ s (j : Fin n), Y (s, j) = stateOf (Bh s) (y s j) := fun s j =>
    green_y_unique hH hz (hY (s, j)) (green_y_state h0 (hh s) (hHh s) (hA s j j.2) (hy s j j.2))
  have eC : ∀ s (j : Fin n), create (orbital n (s, j)) (stateOf B0 GS) =
      stateOf (Bp s) (opMat2 (Bp s) B0 (create (s * n + j)) *ᵥ GS) := fun s j => apply_stateOf h0 (hp s) (hC s j j.2) GS
  have eA : ∀ s (j : Fin n), annihilate (orbital n (s, j)) (stateOf B0 GS) =
      stateOf (Bh s) (opMat2 (Bh s) B0 (annihilate (s * n + j)) *ᵥ GS) := fun s j => apply_stateOf h0 (hh s) (hA s j j.2) GS
  constructor
  · intro s i j
    rw [hG, eX, eY, eC, eA, fockInner_stateOf (hp s), fockInner_stateOf (hh s)]
  · intro s s' i j hs
    rw [hG, eX, eY, eC, eA, fockInner_disjoint (dp s s' hs), fockInner_disjoint (dh s' s hs.symm), add_zero]

theorem sites_single (s : ℕ) {p : ℕ × ℕ} : p ∈ sites [s] n ↔ p.1 = s ∧ p.2 < n := by
  rw [mem_sites, List.mem_singleton]

/-- The loop over the spins. -/
theorem hubbardLoop_ok {zoom : ℤ} {coordOf : ℝ → Coord} {st : ℕ → ℕ → StateID} (h : States zoom coordOf n st) (hn : 1 ≤ n)
    (h64 : 2 * n ≤ 64) {L : Lat n 1 1} (hL : ∀ i, L.points i = ![((i : ℕ) : ℝ)]) {inter : List (LBond 1)}
    {terms : List ParticleTerm} {table : IndexTable StateID}
    (hq : ∀ s < 2, ∀ i < n, table.queryIndex (st s i) = .ok ((s * n + i : ℕ) : ℤ)) {H : Module.End ℂ Fock} (hadj : IsAdj H H)
    {B0 : List ℕ} {Bp Bh : Fin 2 → List ℕ} (h0 : B0.Nodup) {half : ℤ}
    (hP : ∀ s : Fin 2, hubbardSpace zoom coordOf L table terms (sectorNumbers half (s : ℕ) 1).1 (sectorNumbers half (s : ℕ) 1).2 =
      .ok ⟨table, Bp s, opMat (Bp s) H⟩)
    (hHl : ∀ s : Fin 2, hubbardSpace zoom coordOf L table terms (sectorNumbers half (s : ℕ) (-1)).1
      (sectorNumbers half (s : ℕ) (-1)).2 = .ok ⟨table, Bh s, opMat (Bh s) H⟩)
    (hp : ∀ s, (Bp s).Pairwise (· < ·)) (hh : ∀ s, (Bh s).Pairwise (· < ·)) (hpne : ∀ s, Bp s ≠ []) (hhne : ∀ s, Bh s ≠ [])
    (hC : ∀ s : Fin 2, ∀ j < n, MapsTo (create (s * n + j)) B0 (Bp s))
    (hA : ∀ s : Fin 2, ∀ j < n, MapsTo (annihilate (s * n + j)) B0 (Bh s)) {GE : ℝ} {GS : Vec B0.length} {d : ℕ}
    (hWC : ∀ s : Fin 2, ∀ j < n, SmallKrylov (opMat (Bp s) H) (opMat2 (Bp s) B0 (create (s * n + j)) *ᵥ GS) d)
    (hWA : ∀ s : Fin 2, ∀ j < n, SmallKrylov (opMat (Bh s) H) (opMat2 (Bh s) B0 (annihilate (s * n + j)) *ᵥ GS) d)
    (hnorm : vdot GS GS = 1) {eta thr : ℝ} (ht : 0 ≤ thr) (heta : eta ≠ 0) {K : ℤ} (hd : 1 ≤ d) (hK : (d : ℤ) < K)
    {omegas : List ℝ} (hom : omegas ≠ []) (g : Garbage omegas.length) {HM0 : Matrix (Fin B0.length) (Fin B0.length) ℂ} :
    ((∀ q < 2 * n, thr ^ 2 < occupation B0 GS q ∧ thr ^ 2 < 1 - occupation B0 GS q) →
      ∃ F, hubbardLoop zoom coordOf thr K half ⟨⟨n, 1, 1, L⟩, inter, terms, table⟩ ⟨table, B0, HM0⟩ GE GS omegas eta g
          spinPair ⟨[], fun _ => none⟩ = .ok F ∧
        (∀ s s' : Fin 2, s ≠ s' → ∀ i < n, ∀ j < n, F.get (opA st (s, i), opC st (s', j)) = none) ∧
        ∀ wi, ∃ (x : ∀ s, ℕ → Vec (Bp s).length) (y : ∀ s, ℕ → Vec (Bh s).length),
          (∀ s : Fin 2, ∀ j < n, GF.shifted (zOf (omegas.get wi) eta) GE (opMat (Bp s) H) "-" *ᵥ x s j =
            opMat2 (Bp s) B0 (create (s * n + j)) *ᵥ GS) ∧
          (∀ s : Fin 2, ∀ j < n, GF.shifted (zOf (omegas.get wi) eta) GE (opMat (Bh s) H) "+" *ᵥ y s j =
            opMat2 (Bh s) B0 (annihilate (s * n + j)) *ᵥ GS) ∧
          ∀ s : Fin 2, ∀ i < n, ∀ j < n, ‖(F.get (opA st (s, i), opC st (s, j))).getD 0 wi -
            (vdot (opMat2 (Bp s) B0 (create (s * n + i)) *ᵥ GS) (x s j) +
              vdot (opMat2 (Bh s) B0 (annihilate (s * n + j)) *ᵥ GS) (y s i))‖ ≤ 2 * (thr / eta ^ 2)) ∧
    ((∃ q < 2 * n, occupation B0 GS q ≤ thr ^ 2 ∨ 1 - occupation B0 GS q ≤ thr ^ 2) →
      hubbardLoop zoom coordOf thr K half ⟨⟨n, 1, 1, L⟩, inter, terms, table⟩ ⟨table, B0, HM0⟩ GE GS omegas eta g
          spinPair ⟨[], fun _ => none⟩ = .error .valueError) := by
  have main := fun s : Fin 2 => gfsSectors_ok (S := 2) (Ts := [(s : ℕ)]) (table := table) (B0 := B0) (Bp := Bp s) (Bh := Bh s) (H := H)
    (GE := GE) (GS := GS) (d := d) (eta := eta) (thr := thr) (K := K) (omegas := omegas) (HM0 := HM0) (tableH := table)
    (tableP := table) h hn
    (fun a ha => by rw [List.mem_singleton] at ha; subst ha; exact s.2) (List.nodup_singleton _) (by simp) h64 hq h0 (hp s) (hh s)
    (hpne s) (hhne s) hadj (fun a ha => by rw [List.mem_singleton] at ha; subst ha; exact hC s)
    (fun a ha => by rw [List.mem_singleton] at ha; subst ha; exact hA s)
    (fun a ha => by obtain ⟨e, hj⟩ := (sites_single _).1 ha; rw [e]; exact hWC s _ hj)
    (fun a ha => by obtain ⟨e, hj⟩ := (sites_single _).1 ha; rw [e]; exact hWA s _ hj) hnorm ht heta hd hK hom g
  have hops := fun s : Fin 2 => operators_ok h [(s : ℕ)] hL
  have hloop : ∀ r, (do
      let E0 ← gfsSectors zoom thr K ⟨table, B0, HM0⟩ ⟨table, Bh 0, opMat (Bh 0) H⟩ ⟨table, Bp 0, opMat (Bp 0) H⟩
        ((sites [((0 : Fin 2) : ℕ)] n).map fun p => (opA st p, opC st p)) GE GS omegas eta g
      let E1 ← gfsSectors zoom thr K ⟨table, B0, HM0⟩ ⟨table, Bh 1, opMat (Bh 1) H⟩ ⟨table, Bp 1, opMat (Bp 1) H⟩
        ((sites [((1 : Fin 2) : ℕ)] n).map fun p => (opA st p, opC st p)) GE GS omegas eta g
      return ((⟨[], fun _ => none⟩ : GfDict omegas.length).update E0).update E1) = r →
      hubbardLoop zoom coordOf thr K half ⟨⟨n, 1, 1, L⟩, inter, terms, table⟩ ⟨table, B0, HM0⟩ GE GS omegas eta g
          spinPair ⟨[], fun _ => none⟩ = r := by
    rintro r rfl
    have p0 := hP 0
    have p1 := hP 1
    have q0 := hHl 0
    have q1 := hHl 1
    have o0 := hops 0
    have o1 := hops 1
    unfold spinPair hubbardLoop
    simp only [Fin.val_zero, Fin.val_one, Nat.cast_zero, Nat.cast_one, List.map_cons, List.map_nil] at p0 p1 q0 q1 o0 o1
    simp only [Fin.val_zero, Fin.val_one]
    rw [p0, q0, o0]
    simp only [bind, Except.bind]
    cases gfsSectors zoom thr K ⟨table, B0, HM0⟩ ⟨table, Bh 0, opMat (Bh 0) H⟩ ⟨table, Bp 0, opMat (Bp 0) H⟩
        ((sites [0] n).map fun p => (opA st p, opC st p)) GE GS omegas eta g with
    | error e => rfl
    | ok E0 =>
      dsimp only
      unfold hubbardLoop
      rw [p1, q1, o1]
      simp only [bind, Except.bind]
      cases gfsSectors zoom thr K ⟨table, B0, HM0⟩ ⟨table, Bh 1, opMat (Bh 1) H⟩ ⟨table, Bp 1, opMat (Bp 1) H⟩
        ((sites [1] n).map fun p => (opA st p, opC st p)) GE GS omegas eta g with
      | error e => rfl
      | ok E1 => rfl
  constructor
  · intro hocc
    have hg := fun s : Fin 2 => (main s).1 fun a ha i hi => by
      rw [List.mem_singleton] at ha
      subst ha
      exact hocc _ (site_lt s.2 hi)
    choose Dd hD hout hclose using hg
    refine ⟨((⟨[], fun _ => none⟩ : GfDict omegas.length).update ⟨keysOf st n [((0 : Fin 2) : ℕ)], Dd 0⟩).update
      ⟨keysOf st n [((1 : Fin 2) : ℕ)], Dd 1⟩, hloop _ ?_, ?_, ?_⟩
    · rw [hD 0, hD 1]
      rfl
    all_goals
      have hFget : ∀ key, (((⟨[], fun _ => none⟩ : GfDict omegas.length).update ⟨keysOf st n [((0 : Fin 2) : ℕ)], Dd 0⟩).update
        ⟨keysOf st n [((1 : Fin 2) : ℕ)], Dd 1⟩).get key = (Dd 1 key).orElse fun _ => (Dd 0 key).orElse fun _ => none := fun key => rfl
      have hnone : ∀ s a b : Fin 2, a ≠ s ∨ b ≠ s → ∀ i < n, ∀ j < n, Dd s (opA st (a, i), opC st (b, j)) = none := by
        intro s a b hab i hi j hj
        by_contra hsome
        obtain ⟨⟨q, hq, he⟩, ⟨q', hq', he'⟩⟩ := hout s _ _ hsome
        have e1 := (opA_inj h (p := ((a : ℕ), i)) hi (mem_sites.1 hq).2).1 he
        have e2 := (opC_inj h (p := ((b : ℕ), j)) hj (mem_sites.1 hq').2).1 he'
        have f1 := ((sites_single _).1 hq).1
        have f2 := ((sites_single _).1 hq').1
        rw [← e1] at f1
        rw [← e2] at f2
        rcases hab with hab | hab
        · exact hab (Fin.ext f1)
        · exact hab (Fin.ext f2)
    · intro s s' hs i hi j hj
      rw [hFget, hnone 1 s s' (by by_contra hc; push Not at hc; exact hs (hc.1.trans hc.2.symm)) i hi j hj,
        hnone 0 s s' (by by_contra hc; push Not at hc; exact hs (hc.1.trans hc.2.symm)) i hi j hj]
      rfl
    · intro wi
      have hcl := fun s => hclose s wi
      choose x y hx hy hrow using hcl
      refine ⟨fun s j => x s (s, j), fun s j => y s (s, j), fun s j hj => hx s (s, j) ((sites_single _).2 ⟨rfl, hj⟩),
        fun s j hj => hy s (s, j) ((sites_single _).2 ⟨rfl, hj⟩), ?_⟩
      intro s i hi j hj
      obtain ⟨row, r1, r2⟩ := hrow s (s, i) ((sites_single _).2 ⟨rfl, hi⟩) (s, j) ((sites_single _).2 ⟨rfl, hj⟩)
      have : (((⟨[], fun _ => none⟩ : GfDict omegas.length).update ⟨keysOf st n [((0 : Fin 2) : ℕ)], Dd 0⟩).update
        ⟨keysOf st n [((1 : Fin 2) : ℕ)], Dd 1⟩).get (opA st (s, i), opC st (s, j)) = some row := by
        rw [hFget]
        obtain rfl | rfl : s = 0 ∨ s = 1 := by omega
        · rw [hnone 1 0 0 (.inl (by decide)) i hi j hj, r1]
          rfl
        · rw [r1]
          rfl
      rw [this]
      exact r2
  · rintro ⟨q, hq', hle⟩
    refine hloop _ ?_
    by_cases hqn : q < n
    · rw [(main 0).2 ⟨0, List.mem_singleton_self _, q, hqn, by rwa [zero_mul, zero_add]⟩]
      rfl
    · have hb1 := (main 1).2 ⟨1, List.mem_singleton_self _, q - n, by omega, by
        rw [one_mul, show n + (q - n) = q by omega]; exact hle⟩
      rw [hb1]
      by_cases hc : ∃ s ∈ [((0 : Fin 2) : ℕ)], ∃ i < n, occupation B0 GS (s * n + i) ≤ thr ^ 2 ∨ 1 - occupation B0 GS (s * n + i) ≤ thr ^ 2
      · rw [(main 0).2 hc]
        rfl
      · push Not at hc
        obtain ⟨D0, hD0, -⟩ := (main 0).1 hc
        rw [hD0]
        rfl

end

end Verif.Demo
