import Verif.Spec.HubbardCluster
import Verif.Proofs.LatticeBand
import Verif.Proofs.HubbardSpace
/-!
# Lemmas for C115: the Hubbard model on a built-in cluster
-/

namespace Verif.LDB

open Verif.Latt Verif.Spec Demo

section pairs

variable {n m k : ℕ} {S : Set (Pt m)} {points : Fin n → Pt m} {v : Fin k → Pt m} {d : ℝ}
  {intra inter : List (Pt m × Pt m)}

/-- The bonds inside the cluster, by the indices of their endpoints. -/
theorem intra_pairs (ht : ExactTiling S points v) (hl : ListsBonds S points v (· = d) intra inter) (hd : d ≠ 0)
    {ix : Pt m → Fin n} (hix : ∀ j, ix (points j) = j) {M : Type*} [AddCommMonoid M] (F : Fin n → Fin n → M)
    (hF : ∀ i j, F i j = F j i) :
    (intra.map fun b => F (ix b.1) (ix b.2)).sum =
      ∑ p : Fin n × Fin n with p.1 < p.2 ∧ ndist (points p.1) (points p.2) = d, F p.1 p.2 := by
  classical
  have hnd : intra.Nodup := (List.nodup_append.1 hl.nodup).1
  have hinj := tiling_points_inj ht
  have hS : ∀ i, points i ∈ S := fun i => by
    have := ht.inside i 0
    rwa [comb_zero, add_zero] at this
  set key : Pt m × Pt m → Fin n × Fin n := fun b =>
    if ix b.1 < ix b.2 then (ix b.1, ix b.2) else (ix b.2, ix b.1) with hkey
  have hcase : ∀ b ∈ intra, ∃ i j, b = (points i, points j) ∧ i ≠ j ∧ ndist (points i) (points j) = d := by
    intro b hb
    obtain ⟨⟨i, hi⟩, ⟨j, hj⟩, h3⟩ := hl.inside b hb
    refine ⟨i, j, Prod.ext hi hj, ?_, by rw [← hi, ← hj]; exact h3⟩
    rintro rfl
    apply hd
    rw [← h3, hi, hj, ndist_self]
  rw [← List.sum_toFinset _ hnd]
  refine Finset.sum_nbij key ?_ ?_ ?_ ?_
  · intro b hb
    obtain ⟨i, j, rfl, hij, hdist⟩ := hcase b (List.mem_toFinset.1 hb)
    simp only [hkey, hix, Finset.mem_filter, Finset.mem_univ, true_and]
    split
    · rename_i h; exact ⟨h, hdist⟩
    · rename_i h; exact ⟨lt_of_le_of_ne (not_lt.1 h) hij.symm, by rw [ndist_comm]; exact hdist⟩
  · intro b hb b' hb' e
    have hb := List.mem_toFinset.1 (Finset.mem_coe.1 hb)
    have hb' := List.mem_toFinset.1 (Finset.mem_coe.1 hb')
    obtain ⟨i, j, rfl, hij, hdist⟩ := hcase b hb
    obtain ⟨i', j', rfl, hij', hdist'⟩ := hcase b' hb'
    simp only [hkey, hix] at e
    obtain ⟨x, -, hx⟩ := hl.each _ (hS i) _ (hS j) hdist
    have z : ∀ p : Pt m, p + comb v 0 = p := fun p => by rw [comb_zero, add_zero]
    rw [hx _ ⟨List.mem_append_left _ hb, 0, Or.inl ⟨z _, z _⟩⟩, hx _ ⟨List.mem_append_left _ hb', 0, ?_⟩]
    dsimp only
    rw [z, z, hinj.eq_iff, hinj.eq_iff, hinj.eq_iff, hinj.eq_iff]
    split at e <;> split at e <;> simp only [Prod.mk.injEq] at e <;> omega
  · intro p hp
    simp only [Finset.coe_filter, Finset.mem_univ, true_and, Set.mem_ofPred_eq] at hp
    obtain ⟨b, ⟨hb, c, hc⟩, -⟩ := hl.each _ (hS p.1) _ (hS p.2) hp.2
    have hbi : b ∈ intra ∧ ((b.1 = points p.1 ∧ b.2 = points p.2) ∨ (b.1 = points p.2 ∧ b.2 = points p.1)) := by
      obtain ⟨⟨a, ha⟩, -, -⟩ := listed ht hl hb
      have hc0 : c = 0 := by
        rcases hc with ⟨h1, -⟩ | ⟨h1, -⟩
        · exact (tiling_inj' ht (j := p.1) (c' := 0) (by rw [← ha, comb_zero, add_zero]; exact h1)).2
        · exact (tiling_inj' ht (j := p.2) (c' := 0) (by rw [← ha, comb_zero, add_zero]; exact h1)).2
      subst hc0
      simp only [comb_zero, add_zero] at hc
      refine ⟨?_, hc⟩
      rcases List.mem_append.1 hb with hb | hb
      · exact hb
      · obtain ⟨-, -, h3, -⟩ := hl.across b hb
        rcases hc with ⟨-, h⟩ | ⟨-, h⟩
        · exact absurd h (h3 _)
        · exact absurd h (h3 _)
    refine ⟨b, Finset.mem_coe.2 (List.mem_toFinset.2 hbi.1), ?_⟩
    rcases hbi.2 with ⟨h1, h2⟩ | ⟨h1, h2⟩
    · simp only [hkey, h1, h2, hix, if_pos hp.1]
    · simp only [hkey, h1, h2, hix, if_neg (lt_asymm hp.1)]
  · intro b _
    simp only [hkey]
    split
    · rfl
    · exact hF _ _

end pairs

section sector

variable {n Nup Ndown : ℕ}

theorem spinSector_of {kets : List ℕ} {subs : List (List ℕ × HNum)}
    (hsubs : subs = [((List.range n).map fun i : ℕ => n + i, HNum.int Nup), (List.range n, HNum.int Ndown)])
    (hk : baseVectors (spinSpecs n Nup Ndown) = .ok kets) (hpre : (spinSpecs n Nup Ndown).mapM preprocess = .ok subs)
    (hrep : NoRepeats subs) : SpinSector n Nup Ndown kets := by
  refine ⟨(C15_base_vectors_ascending _ .array kets hk _ hpre hrep).1, fun k => ?_⟩
  rw [C14_base_vectors_exact _ _ _ kets hk _ hpre hrep]
  unfold AllowedKet
  subst hsubs
  have e1 : (((List.range n).map fun i : ℕ => n + i).filter fun i => k.testBit i).length =
      ((occ k ∩ Finset.range (2 * n)).filter (n ≤ ·)).card := by
    rw [← List.toFinset_card_of_nodup ((List.nodup_range.map fun a b h => Nat.add_left_cancel h).filter _)]
    congr 1
    ext i
    simp only [List.mem_toFinset, List.mem_filter, List.mem_map, List.mem_range, Finset.mem_filter, Finset.mem_inter,
      mem_occ, Finset.mem_range]
    constructor
    · rintro ⟨⟨a, ha, rfl⟩, h⟩; exact ⟨⟨h, by omega⟩, by omega⟩
    · rintro ⟨⟨h, h2⟩, h3⟩; exact ⟨⟨i - n, by omega, by omega⟩, h⟩
  have e2 : ((List.range n).filter fun i => k.testBit i).length = ((occ k).filter (· < n)).card := by
    rw [← List.toFinset_card_of_nodup (List.nodup_range.filter _)]
    congr 1
    ext i
    simp only [List.mem_toFinset, List.mem_filter, List.mem_range, Finset.mem_filter, mem_occ]
    tauto
  have h1 : (∀ i, k.testBit i = true → ∃ s ∈ [((List.range n).map fun i : ℕ => n + i, HNum.int Nup),
      (List.range n, HNum.int Ndown)], i ∈ s.1) ↔ occ k ⊆ Finset.range (2 * n) := by
    constructor
    · intro h i hi
      obtain ⟨s, hs, hi⟩ := h i ((mem_occ i k).1 hi)
      simp only [List.mem_cons, List.not_mem_nil, or_false] at hs
      rw [Finset.mem_range]
      rcases hs with rfl | rfl
      · obtain ⟨a, ha, rfl⟩ := List.mem_map.1 hi
        have := List.mem_range.1 ha
        omega
      · have := List.mem_range.1 hi
        omega
    · intro h i hi
      have := Finset.mem_range.1 (h ((mem_occ i k).2 hi))
      by_cases hn : i < n
      · exact ⟨(List.range n, HNum.int Ndown), by simp, List.mem_range.2 hn⟩
      · exact ⟨_, List.mem_cons_self, List.mem_map.2 ⟨i - n, List.mem_range.2 (by omega), by omega⟩⟩
  rw [h1]
  refine and_congr_right fun hsub => ?_
  rw [Finset.inter_eq_left.2 hsub] at e1
  constructor
  · intro h
    have a := h _ List.mem_cons_self _ rfl (by positivity)
    have b := h (List.range n, HNum.int Ndown) (by simp) _ rfl (by positivity)
    dsimp only at a b
    rw [e1] at a
    rw [e2] at b
    exact ⟨by exact_mod_cast a, by exact_mod_cast b⟩
  · rintro ⟨a, b⟩ s hs M hM _
    simp only [List.mem_cons, List.not_mem_nil, or_false] at hs
    rcases hs with rfl | rfl
    · cases hM
      dsimp only
      rw [e1, a]
    · cases hM
      dsimp only
      rw [e2, b]

end sector

section run

variable {n m k : ℕ} {zoom : ℤ} {coordOf : ℝ → Coord} {points : Fin n → Pt m}

theorem hopPair_comm (n S i j : ℕ) : hopPair n S i j = hopPair n S j i := by
  unfold hopPair
  exact Finset.sum_congr rfl fun s _ => add_comm _ _

theorem hop_terms_sum {S : Set (Pt m)} {v : Fin k → Pt m} {d : ℝ} {intra inter : List (Pt m × Pt m)}
    (ht : ExactTiling S points v) (hl : ListsBonds S points v (· = d) intra inter) (hd : d ≠ 0) {ix : Pt m → Fin n}
    (hix : ∀ j, ix (points j) = j) (t : ℝ) (T : ℕ → LBond m → ParticleTerm) :
    (intra.map fun b => (((List.range 2).map fun s => (T s b,
      (t : ℂ) • (create (s * n + ix b.1) * annihilate (s * n + ix b.2)),
      (t : ℂ) • (create (s * n + ix b.2) * annihilate (s * n + ix b.1)))).map fun x => x.2.1 + x.2.2).sum).sum =
    (t : ℂ) • ∑ p : Fin n × Fin n with p.1 < p.2 ∧ ndist (points p.1) (points p.2) = d, hopPair n 2 p.1 p.2 := by
  have key : ∀ b : LBond m, (((List.range 2).map fun s => (T s b,
      (t : ℂ) • (create (s * n + ix b.1) * annihilate (s * n + ix b.2)),
      (t : ℂ) • (create (s * n + ix b.2) * annihilate (s * n + ix b.1)))).map fun x => x.2.1 + x.2.2).sum =
      (t : ℂ) • hopPair n 2 (ix b.1) (ix b.2) := by
    intro b
    rw [List.map_map, list_sum_range]
    unfold hopPair
    rw [Finset.smul_sum]
    refine Finset.sum_congr rfl fun s _ => ?_
    rw [smul_add]
    rfl
  simp only [key]
  have := intra_pairs ht hl hd hix (fun i j => (t : ℂ) • hopPair n 2 i j) fun i j => by rw [hopPair_comm]
  refine this.trans ?_
  rw [Finset.smul_sum]

/-- The terms of the script and their matrix. -/
theorem hubbardCluster_ok {st : ℕ → Fin n → StateID} (h : PtStates zoom coordOf points st) (hn : 1 ≤ n)
    (h64 : 2 * n ≤ 64) {L : Lat n m k} (hL : L.points = points) {S : Set (Pt m)} {v : Fin k → Pt m} {d : ℝ} (hd : d ≠ 0)
    {intra inter : List (Pt m × Pt m)} (ht : ExactTiling S points v)
    (hl : ListsBonds S points v (· = d) intra inter) (t U : ℝ) :
    ∃ (terms : List ParticleTerm) (table : IndexTable StateID), hubbardTermList zoom coordOf L t U intra = .ok terms ∧
      stateTable zoom coordOf L spinPair = .ok table ∧
      (∀ s < 2, ∀ i : Fin n, table.queryIndex (st s i) = .ok ((s * n + i : ℕ) : ℤ)) ∧
      ∀ B : List ℕ, B.Pairwise (· < ·) → HopClosed n 2 B →
        hamiltonian table B terms = .ok (opMat B (clusterHubbard d points t U)) := by
  classical
  have : Nonempty ParticleTerm := ⟨⟨[], 0, .general⟩⟩
  have hex : ∀ (s : ℕ) (i j : Fin n), ∃ T, hoppingFactory zoom (siteOf coordOf (points i)) (siteOf coordOf (points j))
      (spin0 := (s : ℤ)) (coeff := t) = .ok T ∧ T.aocs = [⟨.creation, st s i⟩, ⟨.annihilation, st s j⟩] ∧
      T.coeff = t ∧ T.checkCompatibility = true := by
    intro s i j
    obtain ⟨T, h1, h2, h3, h4, -⟩ := C36_hopping_factory zoom (siteOf coordOf (points i)) (siteOf coordOf (points j))
      s 0 none none t (st s i) (st s j) (h.init_eq s i) (h.init_eq s j)
    exact ⟨T, h1, h2, h3, h4⟩
  choose T hT using hex
  choose W hW using fun i : Fin n => C36_hubbard_factory zoom (siteOf coordOf (points i)) 0 ((U / 2 : ℝ) : ℂ)
    (st 1 i) (st 0 i) (by exact_mod_cast h.init_eq 1 i) (by exact_mod_cast h.init_eq 0 i)
  obtain ⟨table, objs, ht1, ht2, ht3⟩ := ptTable_ok h hn (Sn := 2) (by norm_num) hL
  obtain ⟨ix, hix⟩ : ∃ ix : Pt m → Fin n, ∀ j, ix (points j) = j :=
    ⟨fun p => if h : ∃ j, points j = p then h.choose else ⟨0, hn⟩, fun j => by
      have h : ∃ i, points i = points j := ⟨j, rfl⟩
      dsimp only
      rw [dif_pos h]
      exact tiling_points_inj ht h.choose_spec⟩
  have hin : ∀ b ∈ intra, b.1 = points (ix b.1) ∧ b.2 = points (ix b.2) := by
    intro b hb
    obtain ⟨⟨i, hi⟩, ⟨j, hj⟩, -⟩ := hl.inside b hb
    rw [hi, hj, hix, hix]
    exact ⟨rfl, rfl⟩
  set l1 : List (ParticleTerm × Module.End ℂ Fock × Module.End ℂ Fock) := (List.finRange n).map fun i =>
    (W i, ((U / 2 : ℝ) : ℂ) • doubly n i, ((U / 2 : ℝ) : ℂ) • doubly n i) with hl1
  set l2 : List (ParticleTerm × Module.End ℂ Fock × Module.End ℂ Fock) := intra.flatMap fun b =>
    (List.range 2).map fun s => (T s (ix b.1) (ix b.2),
      (t : ℂ) • (create (s * n + ix b.1) * annihilate (s * n + ix b.2)),
      (t : ℂ) • (create (s * n + ix b.2) * annihilate (s * n + ix b.1))) with hl2
  have hterms : hubbardTermList zoom coordOf L t U intra = .ok ((l1 ++ l2).map Prod.fst) := by
    have a1 : (List.finRange n).mapM (fun i => hubbardFactory zoom (siteOf coordOf (L.points i))
        (coeff := ((U / 2 : ℝ) : ℂ))) = .ok (l1.map Prod.fst) := by
      rw [hl1, List.map_map]
      refine mapM_ok_map fun i _ => ?_
      rw [hL]
      exact (hW i).1
    have a2 : (intra.flatMap fun b => spinPair.map fun s => (b, s)).mapM (fun p : LBond m × ℤ =>
        hoppingFactory zoom (siteOf coordOf p.1.1) (siteOf coordOf p.1.2) (spin0 := p.2) (coeff := (t : ℂ))) =
        .ok (l2.map Prod.fst) := by
      have : l2.map Prod.fst = (intra.flatMap fun b => spinPair.map fun s => (b, s)).map
          fun p : LBond m × ℤ => T p.2.toNat (ix p.1.1) (ix p.1.2) := by
        rw [hl2, List.map_flatMap, List.map_flatMap]
        rfl
      rw [this]
      refine mapM_ok_map fun p hp => ?_
      obtain ⟨b, hb, hp⟩ := List.mem_flatMap.1 hp
      obtain ⟨s, hs, rfl⟩ := List.mem_map.1 hp
      obtain ⟨s, rfl⟩ : ∃ s' : ℕ, s = (s' : ℤ) := by
        simp only [spinPair, List.mem_cons, List.not_mem_nil, or_false] at hs
        rcases hs with rfl | rfl
        · exact ⟨0, rfl⟩
        · exact ⟨1, rfl⟩
      dsimp only
      rw [Int.toNat_natCast]
      have := (hT s (ix b.1) (ix b.2)).1
      rwa [← (hin b hb).1, ← (hin b hb).2] at this
    unfold hubbardTermList
    rw [a1]
    simp only [bind, Except.bind]
    rw [a2]
    rw [List.map_append]
    rfl
  refine ⟨_, table, hterms, ht1, ht3, ?_⟩
  intro B hB hcl
  have hq0 : ∀ i : Fin n, table.queryIndex (st 0 i) = .ok (i : ℤ) := fun i => by
    have := ht3 0 (by norm_num) i
    rwa [zero_mul, zero_add] at this
  have hq1 : ∀ i : Fin n, table.queryIndex (st 1 i) = .ok ((n + i : ℕ) : ℤ) := fun i => by
    have := ht3 1 (by norm_num) i
    rwa [one_mul] at this
  have estar : ∀ x : ℝ, star (x : ℂ) = x := fun x => Complex.conj_ofReal x
  rw [hamiltonian_of (l1 ++ l2)]
  · congr 2
    rw [List.map_append, List.sum_append]
    unfold clusterHubbard
    congr 1
    · rw [hl1, List.map_map, Finset.smul_sum, Fin.sum_univ_def]
      congr 1
      refine List.map_congr_left fun i _ => ?_
      dsimp only [Function.comp]
      rw [← add_smul]
      congr 1
      push_cast
      ring
    · rw [hl2, sum_map_flatMap]
      exact hop_terms_sum ht hl hd hix t fun s b => T s (ix b.1) (ix b.2)
  · rw [hl1]
    intro h0
    have := congrArg List.length h0
    simp only [List.length_append, List.length_map, List.length_finRange, List.length_nil] at this
    omega
  · intro x hx
    rcases List.mem_append.1 hx with hx | hx
    · obtain ⟨i, -, rfl⟩ := List.mem_map.1 hx
      obtain ⟨-, w2, w3, w4, -⟩ := hW i
      refine ⟨?_, ?_⟩
      · have := isAdj_smul (isAdj_doubly n i) ((U / 2 : ℝ) : ℂ)
        rwa [estar] at this
      · dsimp only
        rw [← w3, ← termOperator_doubly]
        refine term_matrix ht2 hB w4 ?_ ?_ ?_
        · rw [w2, mapM_ok_iff]
          exact .cons (by simp [hq1 i, bind, Except.bind, pure, Except.pure])
            (.cons (by simp [hq1 i, bind, Except.bind, pure, Except.pure])
            (.cons (by simp [hq0 i, bind, Except.bind, pure, Except.pure])
            (.cons (by simp [hq0 i, bind, Except.bind, pure, Except.pure]) .nil)))
        · refine ⟨by simp, fun p hp => ?_⟩
          have := i.2
          simp only [List.mem_cons, List.not_mem_nil, or_false] at hp
          rcases hp with rfl | rfl | rfl | rfl <;> dsimp only <;> omega
        · rw [termOperator_doubly]
          exact mapsTo_doubly n i B
    · obtain ⟨b, hb, hx⟩ := List.mem_flatMap.1 hx
      obtain ⟨s, hs, rfl⟩ := List.mem_map.1 hx
      have hs := List.mem_range.1 hs
      dsimp only
      obtain ⟨-, w2, w3, w4⟩ := hT s (ix b.1) (ix b.2)
      refine ⟨?_, ?_⟩
      · have := isAdj_smul (isAdj_hop (s * n + ix b.1) (s * n + ix b.2)) (t : ℂ)
        rwa [estar] at this
      · rw [← termOperator_hop]
        have hc := hcl s hs (ix b.1) (ix b.1).2 (ix b.2) (ix b.2).2
        rw [← w3]
        refine term_matrix ht2 hB w4 ?_ ?_ (mapsTo_iff_image.2 hc)
        · rw [w2, mapM_ok_iff]
          exact .cons (by simp [ht3 s hs (ix b.1), bind, Except.bind, pure, Except.pure])
            (.cons (by simp [ht3 s hs (ix b.2), bind, Except.bind, pure, Except.pure]) .nil)
        · refine ⟨by simp, fun p hp => ?_⟩
          have l1 := site_lt (S := 2) hs (ix b.1).2
          have l2 := site_lt (S := 2) hs (ix b.2).2
          simp only [List.mem_cons, List.not_mem_nil, or_false] at hp
          rcases hp with rfl | rfl <;> dsimp only <;> omega

theorem spinIndices_pts {st : ℕ → Fin n → StateID} (h : PtStates zoom coordOf points st) {L : Lat n m k}
    (hL : L.points = points) {table : IndexTable StateID}
    (hq : ∀ s < 2, ∀ i : Fin n, table.queryIndex (st s i) = .ok ((s * n + i : ℕ) : ℤ)) {s : ℕ} (hs : s < 2) :
    spinIndices zoom coordOf L table (s : ℤ) = .ok ((List.range n).map fun i : ℕ => ((s * n + i : ℕ) : ℤ)) := by
  unfold spinIndices
  rw [mapM_ok_map (g := fun i : Fin n => ((s * n + (i : ℕ) : ℕ) : ℤ))]
  · rw [← List.map_coe_finRange_eq_range, List.map_map]
    rfl
  · intro i _
    rw [hL, h.init_eq s i]
    simp only [bind, Except.bind]
    exact hq s hs i

/-- One Hilbert space of the script. -/
theorem hubbardSpace_pts {st : ℕ → Fin n → StateID} (h : PtStates zoom coordOf points st) (hn : 1 ≤ n)
    (h64 : 2 * n ≤ 64) {L : Lat n m k} (hL : L.points = points) {table : IndexTable StateID}
    (hq : ∀ s < 2, ∀ i : Fin n, table.queryIndex (st s i) = .ok ((s * n + i : ℕ) : ℤ))
    {terms : List ParticleTerm} {H : Module.End ℂ Fock} (hH : ∀ B : List ℕ, B.Pairwise (· < ·) → HopClosed n 2 B →
      hamiltonian table B terms = .ok (opMat B H)) {Nup Ndown : ℕ} (hup : Nup ≤ n) (hdown : Ndown ≤ n) :
    ∃ kets, hubbardSpace zoom coordOf L table terms Nup Ndown = .ok ⟨table, kets, opMat kets H⟩ ∧
      SpinSector n Nup Ndown kets := by
  obtain ⟨hpre, hrep, hsp, kets, hk, hne⟩ := spin_base hn h64 hup hdown
  have hasc := (C15_base_vectors_ascending _ .array kets hk _ hpre hrep).1
  have hcl := hopClosed_of_speciesWise h64 hk hpre hrep hsp
  refine ⟨kets, ?_, spinSector_of rfl hk hpre hrep⟩
  unfold hubbardSpace
  have u1 := spinIndices_pts h hL hq (s := 1) (by norm_num)
  have u0 := spinIndices_pts h hL hq (s := 0) (by norm_num)
  rw [Nat.cast_one] at u1
  rw [Nat.cast_zero] at u0
  rw [u1, u0]
  simp only [bind, Except.bind]
  have e : [HVal.list [.list (((List.range n).map fun i : ℕ => ((1 * n + i : ℕ) : ℤ)).map .int), .int (Nup : ℤ)],
      .list [.list (((List.range n).map fun i : ℕ => ((0 * n + i : ℕ) : ℤ)).map .int), .int (Ndown : ℤ)]] =
      spinSpecs n Nup Ndown := by
    unfold spinSpecs
    rw [List.map_map, List.map_map]
    have e1 : ((HVal.int ∘ fun i : ℕ => ((1 * n + i : ℕ) : ℤ))) = fun i : ℕ => HVal.int ((n + i : ℕ) : ℤ) := by
      funext i
      dsimp only [Function.comp]
      rw [one_mul]
    have e0 : ((HVal.int ∘ fun i : ℕ => ((0 * n + i : ℕ) : ℤ))) = fun i : ℕ => HVal.int (i : ℤ) := by
      funext i
      dsimp only [Function.comp]
      rw [zero_mul, zero_add]
    rw [e1, e0]
  rw [e, hk]
  dsimp only
  rw [hH kets hasc hcl]
  rfl

theorem isAdj_clusterHubbard (d : ℝ) (points : Fin n → Pt m) (t U : ℝ) :
    IsAdj (clusterHubbard d points t U) (clusterHubbard d points t U) := by
  classical
  have h1 := isAdj_smul (isAdj_sum (s := Finset.univ) fun (i : Fin n) _ => isAdj_doubly n i) (U : ℂ)
  have h2 := isAdj_smul (isAdj_sum (s := Finset.univ.filter fun p : Fin n × Fin n =>
    p.1 < p.2 ∧ ndist (points p.1) (points p.2) = d) fun p _ => isAdj_sum (s := Finset.range 2) fun s _ =>
    isAdj_self_add (isAdj_hop (s * n + p.2) (s * n + p.1)) (isAdj_hop (s * n + p.1) (s * n + p.2))) (t : ℂ)
  have e : ∀ x : ℝ, star (x : ℂ) = x := fun x => Complex.conj_ofReal x
  rw [e] at h1 h2
  have h3 := isAdj_add h1 h2
  have e2 : clusterHubbard d points t U = (U : ℂ) • ∑ i : Fin n, doubly n i +
      (t : ℂ) • ∑ p : Fin n × Fin n with p.1 < p.2 ∧ ndist (points p.1) (points p.2) = d,
        ∑ s ∈ Finset.range 2, (create (s * n + p.1) * annihilate (s * n + p.2) +
          create (s * n + p.2) * annihilate (s * n + p.1)) := by
    unfold clusterHubbard hopPair
    congr
  rw [e2]
  exact h3

end run

theorem hubbard_run {m prec : ℕ} {S : Set (Pt m)} {d : ℝ} (hd0 : d ≠ 0) {count : ℕ} (hc0 : 1 ≤ count)
    (h64 : 2 * count ≤ 64) {v : Fin m → Pt m} {r : Py Built} (ht : ReturnsTiling S count v r)
    (hf : FindsNearest prec S d r) : EveryHubbardRun (m := m) prec count r (HubbardModel d) := by
  obtain ⟨L0, h1, -, h3⟩ := ht
  refine ⟨L0, h1, fun order horder porder hporder calls zoom coordOf hst t U Nup Ndown hup hdown => ?_⟩
  obtain ⟨st, hst⟩ := ptStates_of hst
  obtain ⟨n', L0', g1, g2⟩ := hf
  rw [h1] at g1
  cases g1
  obtain ⟨-, ⟨L', intra, inter, hb, hl⟩, -⟩ := g2 order horder porder hporder calls true
  obtain ⟨hp0, -⟩ := points_history (order := order) (porder := porder) (prec := prec) calls L0
  obtain ⟨-, -, -, -, -, -, -, -, -, -, hpts, -, -⟩ := C51_bonds_exact order horder porder hporder hb
  have hL : L'.points = L0.points := hpts.trans hp0
  obtain ⟨terms, table, t1, t2, t3, t4⟩ := hubbardCluster_ok hst hc0 h64 hL hd0 h3 hl t U
  obtain ⟨kets, k1, k2⟩ := hubbardSpace_pts hst hc0 h64 hL t3 t4 hup hdown
  refine ⟨⟨table, kets, Demo.opMat kets (clusterHubbard d L0.points t U)⟩, ?_, ?_, k2, fun r c => rfl,
    Demo.opMat_adj (isAdj_clusterHubbard _ _ _ _)⟩
  · unfold hubbardClusterSetup hubbardClusterTerms
    rw [hb]
    dsimp only
    rw [t1]
    simp only [bind, Except.bind]
    rw [t2]
    change some (hubbardSpace zoom coordOf L' table terms Nup Ndown) = _
    rw [k1]
  · intro s hs i st' hst'
    rw [hst.init_eq s i] at hst'
    cases hst'
    exact t3 s hs i

end Verif.LDB
