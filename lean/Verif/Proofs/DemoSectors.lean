import Verif.Proofs.DemoKrylov
/-!
# Lemmas for C87: the dicts of cluster Green functions
-/

namespace Verif.Demo

open Latt LDB Spec Matrix Lanczos GF

/-- What the dict of a sector has to satisfy, see `sector_close`. -/
def CloseDict (n : ℕ) (H : Module.End ℂ Fock) (st : ℕ → ℕ → StateID) (Ts : List ℕ) (B0 Bp Bh : List ℕ) (GE : ℝ)
    (GS : Vec B0.length) (omegas : List ℝ) (eta δ : ℝ) (D : AoC × AoC → Option (Fin omegas.length → ℂ)) : Prop :=
  ∀ wi : Fin omegas.length, ∃ (x : ℕ × ℕ → Vec Bp.length) (y : ℕ × ℕ → Vec Bh.length),
    (∀ p ∈ sites Ts n, shifted (zOf (omegas.get wi) eta) GE (opMat Bp H) "-" *ᵥ x p =
      opMat2 Bp B0 (create (p.1 * n + p.2)) *ᵥ GS) ∧
    (∀ p ∈ sites Ts n, shifted (zOf (omegas.get wi) eta) GE (opMat Bh H) "+" *ᵥ y p =
      opMat2 Bh B0 (annihilate (p.1 * n + p.2)) *ᵥ GS) ∧
    ∀ p ∈ sites Ts n, ∀ q ∈ sites Ts n, ∃ row, D (opA st p, opC st q) = some row ∧
      ‖row wi - (vdot (opMat2 Bp B0 (create (p.1 * n + p.2)) *ᵥ GS) (x q) +
        vdot (opMat2 Bh B0 (annihilate (q.1 * n + q.2)) *ᵥ GS) (y p))‖ ≤ δ

theorem project_ok_iff {N : ℕ} {thr : ℝ} {K : ℤ} {HM : Matrix (Fin N) (Fin N) ℂ} {keys : List AoC}
    {ex : AoC → Option (Vec N)} (hgood : ∀ a ∈ keys, thr < norm2 ((ex a).getD 0)) :
    ∃ reps, multiKrylov thr HM keys (fun key => (ex key).getD 0) K = .ok reps ∧
      project thr K HM keys ex = .ok (toDict keys reps) := by
  have h2 := (C57_multi (t := thr) (M := HM) (vectors := fun key => (ex key).getD 0) (K := K) (keys := keys)).2.1
  cases hm : multiKrylov thr HM keys (fun key => (ex key).getD 0) K with
  | error e =>
    obtain ⟨a, ha, hle⟩ := h2.1 ⟨e, hm⟩
    exact absurd (hgood a ha) (not_lt.2 hle)
  | ok reps =>
    refine ⟨reps, rfl, ?_⟩
    unfold project
    rw [hm]
    rfl

theorem project_error {N : ℕ} {thr : ℝ} {K : ℤ} {HM : Matrix (Fin N) (Fin N) ℂ} {keys : List AoC}
    {ex : AoC → Option (Vec N)} {a : AoC} (ha : a ∈ keys) (hbad : norm2 ((ex a).getD 0) ≤ thr) :
    project thr K HM keys ex = .error .valueError := by
  have h2 := (C57_multi (t := thr) (M := HM) (vectors := fun key => (ex key).getD 0) (K := K) (keys := keys)).2
  obtain ⟨e, he⟩ := h2.1.2 ⟨a, ha, hbad⟩
  unfold project
  rw [he, h2.2 e he]
  rfl

section

variable {zoom : ℤ} {coordOf : ℝ → Coord} {n S d : ℕ} {st : ℕ → ℕ → StateID} {table : IndexTable StateID}
  {Ts : List ℕ} {H : Module.End ℂ Fock} {B0 Bp Bh : List ℕ}

theorem lt_norm_iff {N : ℕ} {v : Vec N} {x thr : ℝ} (ht : 0 ≤ thr) (h : norm2 v ^ 2 = x) :
    thr < norm2 v ↔ thr ^ 2 < x := by
  rw [← h, sq_lt_sq₀ ht (norm2_nonneg v)]

/-- One Hilbert space with one particle less, one with one more. -/
theorem gfsSectors_ok (h : States zoom coordOf n st) (hn : 1 ≤ n) (hTs : ∀ s ∈ Ts, s < S) (hnd : Ts.Nodup)
    (hne : Ts ≠ []) (h64 : S * n ≤ 64)
    (hq : ∀ s < S, ∀ i < n, table.queryIndex (st s i) = .ok ((s * n + i : ℕ) : ℤ))
    (h0 : B0.Nodup) (hp : Bp.Pairwise (· < ·)) (hh : Bh.Pairwise (· < ·)) (hpne : Bp ≠ []) (hhne : Bh ≠ [])
    (hadj : IsAdj H H)
    (hC : ∀ s ∈ Ts, ∀ j < n, MapsTo (create (s * n + j)) B0 Bp)
    (hA : ∀ s ∈ Ts, ∀ j < n, MapsTo (annihilate (s * n + j)) B0 Bh) {GE : ℝ} {GS : Vec B0.length}
    (hWC : ∀ p ∈ sites Ts n, SmallKrylov (opMat Bp H) (opMat2 Bp B0 (create (p.1 * n + p.2)) *ᵥ GS) d)
    (hWA : ∀ p ∈ sites Ts n, SmallKrylov (opMat Bh H) (opMat2 Bh B0 (annihilate (p.1 * n + p.2)) *ᵥ GS) d) (hnorm : vdot GS GS = 1) {eta thr : ℝ}
    (ht : 0 ≤ thr) (heta : eta ≠ 0) {K : ℤ} (hd : 1 ≤ d) (hK : (d : ℤ) < K) {omegas : List ℝ} (hom : omegas ≠ [])
    (g : Garbage omegas.length) {HM0 : Matrix (Fin B0.length) (Fin B0.length) ℂ} {tableH tableP : IndexTable StateID} :
    ((∀ s ∈ Ts, ∀ i < n, thr ^ 2 < occupation B0 GS (s * n + i) ∧ thr ^ 2 < 1 - occupation B0 GS (s * n + i)) →
      ∃ D, gfsSectors zoom thr K ⟨table, B0, HM0⟩ ⟨tableH, Bh, opMat Bh H⟩
          ⟨tableP, Bp, opMat Bp H⟩ ((sites Ts n).map fun p => (opA st p, opC st p)) GE GS omegas eta g =
          .ok ⟨keysOf st n Ts, D⟩ ∧
        (∀ A C, D (A, C) ≠ none → (∃ p ∈ sites Ts n, A = opA st p) ∧ ∃ q ∈ sites Ts n, C = opC st q) ∧
        CloseDict n H st Ts B0 Bp Bh GE GS omegas eta (2 * (thr / eta ^ 2)) D) ∧
    ((∃ s ∈ Ts, ∃ i < n, occupation B0 GS (s * n + i) ≤ thr ^ 2 ∨ 1 - occupation B0 GS (s * n + i) ≤ thr ^ 2) →
      gfsSectors zoom thr K ⟨table, B0, HM0⟩ ⟨tableH, Bh, opMat Bh H⟩
          ⟨tableP, Bp, opMat Bp H⟩ ((sites Ts n).map fun p => (opA st p, opC st p)) GE GS omegas eta g =
        .error .valueError) := by
  set l := sites Ts n with hl
  set ops := l.map fun p => (opA st p, opC st p) with hops
  have hfst : ops.map Prod.fst = l.map (opA st) := by rw [hops, List.map_map]; rfl
  have hsnd : ops.map Prod.snd = l.map (opC st) := by rw [hops, List.map_map]; rfl
  have hpn : Bp.Nodup := hp.imp fun h => h.ne
  have hhn : Bh.Nodup := hh.imp fun h => h.ne
  obtain ⟨exH, hexH, hexH1, -⟩ := excited_sector (B := B0) (left := some Bh) hTs h64 hq hh (fun _ => hhne) GS
    (ops := ops.map Prod.fst) (by
      intro a ha
      rw [hfst] at ha
      obtain ⟨p, hp', rfl⟩ := List.mem_map.1 ha
      exact ⟨p, hp', rfl, hA _ (mem_sites.1 hp').1 _ (mem_sites.1 hp').2⟩)
  obtain ⟨exP, hexP, hexP1, -⟩ := excited_sector (B := B0) (left := some Bp) hTs h64 hq hp (fun _ => hpne) GS
    (ops := ops.map Prod.snd) (by
      intro a ha
      rw [hsnd] at ha
      obtain ⟨p, hp', rfl⟩ := List.mem_map.1 ha
      exact ⟨p, hp', rfl, hC _ (mem_sites.1 hp').1 _ (mem_sites.1 hp').2⟩)
  have memA : ∀ p ∈ l, opA st p ∈ ops.map Prod.fst := fun p hp' => by rw [hfst]; exact List.mem_map_of_mem hp'
  have memC : ∀ p ∈ l, opC st p ∈ ops.map Prod.snd := fun p hp' => by rw [hsnd]; exact List.mem_map_of_mem hp'
  have exA : ∀ p ∈ l, (exH (opA st p)).getD 0 = opMat2 Bh B0 (annihilate (p.1 * n + p.2)) *ᵥ GS := by
    intro p hp'
    rw [hexH1 p hp' (opA st p) (memA p hp') rfl]
    rfl
  have exC : ∀ p ∈ l, (exP (opC st p)).getD 0 = opMat2 Bp B0 (create (p.1 * n + p.2)) *ᵥ GS := by
    intro p hp'
    rw [hexP1 p hp' (opC st p) (memC p hp') rfl]
    rfl
  have nA : ∀ p ∈ l, norm2 ((exH (opA st p)).getD 0) ^ 2 = occupation B0 GS (p.1 * n + p.2) := by
    intro p hp'
    have hm := mem_sites.1 hp'
    rw [exA p hp']
    exact norm_annihilate hhn h0 (hA _ hm.1 _ hm.2) GS
  have nC : ∀ p ∈ l, norm2 ((exP (opC st p)).getD 0) ^ 2 = 1 - occupation B0 GS (p.1 * n + p.2) := by
    intro p hp'
    have hm := mem_sites.1 hp'
    rw [exC p hp']
    exact norm_create hpn hhn h0 (hC _ hm.1 _ hm.2) (hA _ hm.1 _ hm.2) hnorm
  have hunf : ∀ r, (do
      let projP ← project thr K (opMat Bp H) (ops.map Prod.snd) exP
      let projH ← project thr K (opMat Bh H) (ops.map Prod.fst) exH
      let proj : AoC → Option (PRep AoC) := fun key => (projH key).orElse fun _ => projP key
      let r ← rgfLanczosMultiple (daggerOf zoom) omegas (ops.map Prod.fst) (ops.map Prod.snd) GE proj eta "+"
        "dict" (g _ _) (g _ _) (fun p k => g _ _ (p.1, p.2, k))
      GfDict.of _ _ r) = r → gfsSectors zoom thr K ⟨table, B0, HM0⟩ ⟨tableH, Bh, opMat Bh H⟩
          ⟨tableP, Bp, opMat Bp H⟩ ops GE GS omegas eta g = r := by
    rintro r rfl
    unfold gfsSectors
    dsimp only
    rw [hexH]
    simp only [bind, Except.bind]
    rw [hexP]
  constructor
  · intro hgood
    obtain ⟨repsP, hP1, hP2⟩ := project_ok_iff (K := K) (HM := opMat Bp H) (thr := thr) (keys := ops.map Prod.snd) (ex := exP) (by
      intro a ha
      rw [hsnd] at ha
      obtain ⟨p, hp', rfl⟩ := List.mem_map.1 ha
      have hm := mem_sites.1 hp'
      exact (lt_norm_iff ht (nC p hp')).2 (hgood _ hm.1 _ hm.2).2)
    obtain ⟨repsH, hH1, hH2⟩ := project_ok_iff (K := K) (HM := opMat Bh H) (thr := thr) (keys := ops.map Prod.fst) (ex := exH) (by
      intro a ha
      rw [hfst] at ha
      obtain ⟨p, hp', rfl⟩ := List.mem_map.1 ha
      have hm := mem_sites.1 hp'
      exact (lt_norm_iff ht (nA p hp')).2 (hgood _ hm.1 _ hm.2).1)
    obtain ⟨D, hD, hout, hclose⟩ := rgfLanczos_ok (H := H) (Ts := Ts) h hn hne h0 hpn hhn hadj hC hA hWC hWA hnorm ht heta hd hK hom hP1 hH1
      memC memA exC exA (P := fun key => (toDict (ops.map Prod.fst) repsH key).orElse fun _ =>
        toDict (ops.map Prod.snd) repsP key)
      (by
        intro p hp'
        rw [toDict_none]
        · rfl
        · rw [hfst]
          intro hmem
          obtain ⟨q, -, he⟩ := List.mem_map.1 hmem
          exact opA_ne_opC _ _ he)
      (by
        intro p hp'
        obtain ⟨rep, -, hd⟩ := toDict_get hH1 (memA p hp')
        rw [hd]
        rfl)
      g hfst hsnd
    refine ⟨D, hunf _ ?_, hout, hclose⟩
    rw [hP2]
    simp only [bind, Except.bind]
    rw [hH2]
    dsimp only
    rw [hD]
    dsimp only [GfDict.of]
    rw [hfst, hsnd, firstOccurrences_nodup (keys_nodup h (nodup_sites hnd) fun p hp => (mem_sites.1 hp).2)]
    rfl
  · rintro ⟨s, hs, i, hi, hbad⟩
    have hm : (s, i) ∈ l := mem_sites.2 ⟨hs, hi⟩
    refine hunf _ ?_
    by_cases hgoodP : ∀ a ∈ ops.map Prod.snd, thr < norm2 ((exP a).getD 0)
    · obtain ⟨repsP, -, hP2⟩ := project_ok_iff (K := K) (HM := opMat Bp H) hgoodP
      rcases hbad with hbad | hbad
      · have hbad' : norm2 ((exH (opA st (s, i))).getD 0) ≤ thr :=
          not_lt.1 fun hlt => absurd ((lt_norm_iff ht (nA (s, i) hm)).1 hlt) (not_lt.2 hbad)
        rw [hP2]
        simp only [bind, Except.bind]
        rw [project_error (memA _ hm) hbad']
      · have hlt := hgoodP _ (memC _ hm)
        exact absurd ((lt_norm_iff ht (nC (s, i) hm)).1 hlt) (not_lt.2 hbad)
    · push Not at hgoodP
      obtain ⟨a, ha, hle⟩ := hgoodP
      rw [project_error ha hle]
      rfl

/-- A single Hilbert space for everything. -/
theorem gfsLanczos_ok (h : States zoom coordOf n st) (hn : 1 ≤ n) (hTs : ∀ s ∈ Ts, s < S) (hnd : Ts.Nodup)
    (hne : Ts ≠ []) (h64 : S * n ≤ 64)
    (hq : ∀ s < S, ∀ i < n, table.queryIndex (st s i) = .ok ((s * n + i : ℕ) : ℤ))
    (h0 : B0.Pairwise (· < ·))
    (hadj : IsAdj H H)
    (hC : ∀ s ∈ Ts, ∀ j < n, MapsTo (create (s * n + j)) B0 B0)
    (hA : ∀ s ∈ Ts, ∀ j < n, MapsTo (annihilate (s * n + j)) B0 B0) {GE : ℝ} {GS : Vec B0.length}
    (hWC : ∀ p ∈ sites Ts n, SmallKrylov (opMat B0 H) (opMat2 B0 B0 (create (p.1 * n + p.2)) *ᵥ GS) d)
    (hWA : ∀ p ∈ sites Ts n, SmallKrylov (opMat B0 H) (opMat2 B0 B0 (annihilate (p.1 * n + p.2)) *ᵥ GS) d) (hnorm : vdot GS GS = 1) {eta thr : ℝ}
    (ht : 0 ≤ thr) (heta : eta ≠ 0) {K : ℤ} (hd : 1 ≤ d) (hK : (d : ℤ) < K) {omegas : List ℝ} (hom : omegas ≠ [])
    (g : Garbage omegas.length) :
    ((∀ s ∈ Ts, ∀ i < n, thr ^ 2 < occupation B0 GS (s * n + i) ∧ thr ^ 2 < 1 - occupation B0 GS (s * n + i)) →
      ∃ D, gfsLanczos zoom thr K ⟨table, B0, opMat B0 H⟩ ((sites Ts n).map fun p => (opA st p, opC st p)) GE GS omegas eta g =
          .ok ⟨keysOf st n Ts, D⟩ ∧
        CloseDict n H st Ts B0 B0 B0 GE GS omegas eta (2 * (thr / eta ^ 2)) D) ∧
    ((∃ s ∈ Ts, ∃ i < n, occupation B0 GS (s * n + i) ≤ thr ^ 2 ∨ 1 - occupation B0 GS (s * n + i) ≤ thr ^ 2) →
      gfsLanczos zoom thr K ⟨table, B0, opMat B0 H⟩ ((sites Ts n).map fun p => (opA st p, opC st p)) GE GS omegas eta g =
        .error .valueError) := by
  set l := sites Ts n with hl
  set ops := l.map fun p => (opA st p, opC st p) with hops
  have hfst : ops.map Prod.fst = l.map (opA st) := by rw [hops, List.map_map]; rfl
  have hsnd : ops.map Prod.snd = l.map (opC st) := by rw [hops, List.map_map]; rfl
  have h0n : B0.Nodup := h0.imp fun h => h.ne
  set keys := ops.flatMap fun p => [p.2, p.1] with hkeys
  have memK : ∀ a, a ∈ keys ↔ ∃ p ∈ l, a = opC st p ∨ a = opA st p := by
    intro a
    rw [hkeys, List.mem_flatMap]
    constructor
    · rintro ⟨r, hr, ha⟩
      obtain ⟨p, hp, rfl⟩ := List.mem_map.1 hr
      exact ⟨p, hp, by simpa using ha⟩
    · rintro ⟨p, hp, ha⟩
      exact ⟨_, List.mem_map_of_mem hp, by simpa using ha⟩
  have memA : ∀ p ∈ l, opA st p ∈ keys := fun p hp' => (memK _).2 ⟨p, hp', .inr rfl⟩
  have memC : ∀ p ∈ l, opC st p ∈ keys := fun p hp' => (memK _).2 ⟨p, hp', .inl rfl⟩
  obtain ⟨ex, hex, hex1, -⟩ := excited_sector (B := B0) (left := none) hTs h64 hq h0 (fun h => h) GS
    (ops := keys) (by
      intro a ha
      obtain ⟨p, hp', ha⟩ := (memK a).1 ha
      have hm := mem_sites.1 hp'
      rcases ha with rfl | rfl
      · exact ⟨p, hp', rfl, hC _ hm.1 _ hm.2⟩
      · exact ⟨p, hp', rfl, hA _ hm.1 _ hm.2⟩)
  have exA : ∀ p ∈ l, (ex (opA st p)).getD 0 = opMat2 B0 B0 (annihilate (p.1 * n + p.2)) *ᵥ GS := by
    intro p hp'
    rw [hex1 p hp' (opA st p) (memA p hp') rfl]
    rfl
  have exC : ∀ p ∈ l, (ex (opC st p)).getD 0 = opMat2 B0 B0 (create (p.1 * n + p.2)) *ᵥ GS := by
    intro p hp'
    rw [hex1 p hp' (opC st p) (memC p hp') rfl]
    rfl
  have nA : ∀ p ∈ l, norm2 ((ex (opA st p)).getD 0) ^ 2 = occupation B0 GS (p.1 * n + p.2) := by
    intro p hp'
    have hm := mem_sites.1 hp'
    rw [exA p hp']
    exact norm_annihilate h0n h0n (hA _ hm.1 _ hm.2) GS
  have nC : ∀ p ∈ l, norm2 ((ex (opC st p)).getD 0) ^ 2 = 1 - occupation B0 GS (p.1 * n + p.2) := by
    intro p hp'
    have hm := mem_sites.1 hp'
    rw [exC p hp']
    exact norm_create h0n h0n h0n (hC _ hm.1 _ hm.2) (hA _ hm.1 _ hm.2) hnorm
  have hunf : ∀ r, (do
      let proj ← project thr K (opMat B0 H) keys ex
      let r ← rgfLanczosMultiple (daggerOf zoom) omegas (ops.map Prod.fst) (ops.map Prod.snd) GE proj eta "+"
        "dict" (g _ _) (g _ _) (fun p k => g _ _ (p.1, p.2, k))
      GfDict.of _ _ r) = r → gfsLanczos zoom thr K ⟨table, B0, opMat B0 H⟩ ops GE GS omegas eta g = r := by
    rintro r rfl
    unfold gfsLanczos
    dsimp only
    rw [hex]
    rfl
  constructor
  · intro hgood
    obtain ⟨reps, hP1, hP2⟩ := project_ok_iff (K := K) (HM := opMat B0 H) (thr := thr) (keys := keys) (ex := ex) (by
      intro a ha
      obtain ⟨p, hp', ha⟩ := (memK a).1 ha
      have hm := mem_sites.1 hp'
      rcases ha with rfl | rfl
      · exact (lt_norm_iff ht (nC p hp')).2 (hgood _ hm.1 _ hm.2).2
      · exact (lt_norm_iff ht (nA p hp')).2 (hgood _ hm.1 _ hm.2).1)
    obtain ⟨D, hD, -, hclose⟩ := rgfLanczos_ok (H := H) (Ts := Ts) h hn hne h0n h0n h0n hadj hC hA hWC hWA hnorm ht heta hd hK hom hP1 hP1
      memC memA exC exA (P := toDict keys reps) (fun _ _ => rfl) (fun _ _ => rfl) g hfst hsnd
    refine ⟨D, hunf _ ?_, hclose⟩
    rw [hP2]
    simp only [bind, Except.bind]
    rw [hD]
    dsimp only [GfDict.of]
    rw [hfst, hsnd, firstOccurrences_nodup (keys_nodup h (nodup_sites hnd) fun p hp => (mem_sites.1 hp).2)]
    rfl
  · rintro ⟨s, hs, i, hi, hbad⟩
    have hm : (s, i) ∈ l := mem_sites.2 ⟨hs, hi⟩
    refine hunf _ ?_
    rcases hbad with hbad | hbad
    · have hbad' : norm2 ((ex (opA st (s, i))).getD 0) ≤ thr :=
        not_lt.1 fun hlt => absurd ((lt_norm_iff ht (nA (s, i) hm)).1 hlt) (not_lt.2 hbad)
      rw [project_error (memA _ hm) hbad']
      rfl
    · have hbad' : norm2 ((ex (opC st (s, i))).getD 0) ≤ thr :=
        not_lt.1 fun hlt => absurd ((lt_norm_iff ht (nC (s, i) hm)).1 hlt) (not_lt.2 hbad)
      rw [project_error (memC _ hm) hbad']
      rfl

end

end Verif.Demo
