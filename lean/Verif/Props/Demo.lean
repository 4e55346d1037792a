import Verif.Proofs.Demo
/-!
# C85: the Hamiltonian of the tight-binding demos
-/

namespace Verif.Demo

open Latt LDB Spec

variable {prec : ℕ}

theorem hopClosed_of_speciesWise {n S : ℕ} (h64 : S * n ≤ 64) {specs : List HVal} {kets : List ℕ}
    {subs : List (List ℕ × HNum)} (hk : baseVectors specs = .ok kets)
    (hsub : specs.mapM preprocess = .ok subs) (hrep : NoRepeats subs) (hsp : SpeciesWise n S subs) :
    HopClosed n S kets := by
  intro s hs i hi j hj
  have hlt : ∀ i < n, s * n + i < S * n := by
    intro i hi
    have : (s + 1) * n ≤ S * n := Nat.mul_le_mul_right n hs
    rw [Nat.add_mul] at this
    omega
  have h1 := hlt i hi
  have h2 := hlt j hj
  obtain ⟨M, hM⟩ := C25_conserving_terms_never_raise specs kets hk subs hsub hrep
    [(((s * n + i : ℕ) : ℤ), .creation), (((s * n + j : ℕ) : ℤ), .annihilation)] 1 (by simp)
    (by
      intro p hp
      simp only [List.mem_cons, List.not_mem_nil, or_false] at hp
      rcases hp with rfl | rfl <;> dsimp only <;> omega)
    ⟨by
      intro p hp
      simp only [List.mem_cons, List.not_mem_nil, or_false] at hp
      rcases hp with rfl | rfl
      · obtain ⟨q, hq, hm⟩ := hsp.1 _ h1; exact ⟨q, hq, _, hm, rfl⟩
      · obtain ⟨q, hq, hm⟩ := hsp.1 _ h2; exact ⟨q, hq, _, hm, rfl⟩, by
      intro p hp hf
      have hmem : ∀ x : ℕ, ((x : ℤ) ∈ p.1.map fun i : ℕ => (i : ℤ)) ↔ x ∈ p.1 := by
        intro x; simp
      rcases hsp.2 p hp hf s hs with h | h
      · have a1 := (hmem _).2 (h i hi)
        have a2 := (hmem _).2 (h j hj)
        generalize ((s * n + i : ℕ) : ℤ) = x at a1 ⊢
        generalize ((s * n + j : ℕ) : ℤ) = y at a2 ⊢
        simp [List.filter_cons, a1, a2, -List.mem_map]
      · have a1 := mt (hmem _).1 (h i hi)
        have a2 := mt (hmem _).1 (h j hj)
        generalize ((s * n + i : ℕ) : ℤ) = x at a1 ⊢
        generalize ((s * n + j : ℕ) : ℤ) = y at a2 ⊢
        simp [List.filter_cons, a1, a2, -List.mem_map]⟩
  exact (general_csr_image hM).2.2

/-- The bonds of the ring, summed. -/
theorem ring_sum {M : Type _} [AddCommMonoid M] {n : ℕ} (hn : 1 ≤ n) (F : ℕ → ℕ → M)
    (hF : ∀ i j, F i j = F j i) {intra inter : List (LBond 1)} {back : ℕ → Prop} [DecidablePred back]
    (h1 : intra.Perm ((List.range (n - 1)).map (forward 1)))
    (h2 : inter.Perm (((List.range n).filter (n ≤ · + 1)).map fun a =>
      if back a then backward n 1 a else forward 1 a)) :
    ((intra ++ inter).map fun b => F (res n (b.1 0)) (res n (b.2 0))).sum =
      ∑ i ∈ Finset.range n, F i ((i + 1) % n) := by
  have hf : ∀ a < n, F (res n ((forward 1 a).1 0)) (res n ((forward 1 a).2 0)) = F a ((a + 1) % n) := by
    intro a ha
    congr 1
    · exact res_of_eq ha (z := 0) (by simp [forward])
    · refine res_of_eq (Nat.mod_lt _ hn) (z := ((a + 1) / n : ℕ)) ?_
      have := wrap_eq n 1 a
      simp only [forward, Matrix.cons_val_fin_one, Int.cast_natCast, this]
      ring
  have hb : ∀ a < n, F (res n ((backward n 1 a).1 0)) (res n ((backward n 1 a).2 0)) = F a ((a + 1) % n) := by
    intro a ha
    rw [hF]
    congr 1
    · refine res_of_eq ha (z := -((a + 1) / n : ℕ)) ?_
      have := wrap_eq n 1 a
      simp only [backward, Matrix.cons_val_fin_one, Int.cast_neg, Int.cast_natCast, neg_mul, this]
      ring
    · exact res_of_eq (Nat.mod_lt _ hn) (z := 0) (by simp [backward])
  obtain ⟨q, rfl⟩ : ∃ q, n = q + 1 := ⟨n - 1, by omega⟩
  have hfil : (List.range (q + 1)).filter (q + 1 ≤ · + 1) = [q] := by
    rw [List.range_succ, List.filter_append, List.filter_eq_nil_iff.2, List.nil_append]
    · simp
    · intro a ha
      have := List.mem_range.1 ha
      simp only [decide_eq_true_eq]
      omega
  rw [hfil] at h2
  rw [List.map_append, List.sum_append, (h1.map _).sum_eq, (h2.map _).sum_eq, List.map_map, List.map_map,
    Finset.sum_range_succ, ← list_sum_range]
  congr 1
  · congr 1
    refine List.map_congr_left fun a ha => ?_
    have := List.mem_range.1 ha
    exact hf a (by omega)
  · rw [List.map_singleton, List.sum_singleton]
    dsimp only [Function.comp]
    split
    · exact hb q (by omega)
    · exact hf q (by omega)

/-- **C85 (Hamiltonian of the tight-binding demos).** For every number of sites and species (`S = 1` in
NNTBChain1.py, `S = 2` in the others), every real `t` and all specifiers whose constrained subspaces do
not cut through a species: the script builds its Hamiltonian without error, the table numbers site `i` of
species `s` by `s n + i`, and `HM` is the matrix, on the basis returned by `base_vectors`, of
`t sum_s sum_i (c_{s,i}^dagger c_{s,i+1} + h.c.)` on the ring, whatever the iteration order of the sets
used internally and whichever representative of the boundary bond the lattice returns. -/
theorem C85_hamiltonian (order : ∀ k : ℕ, List (Fin k → ℤ) → List (Fin k → ℤ))
    (horder : ∀ k l, (order k l).Perm l)
    (porder : ∀ N : ℕ, List (Fin N × Fin N) → List (Fin N × Fin N))
    (hporder : ∀ N l, (porder N l).Perm l) (hprec : 1 ≤ prec) {p n S : ℕ} (hp : p ≤ 22)
    (hz : 10 ^ p * n ≤ 2 ^ 53) (hn : 1 ≤ n) (hS : 1 ≤ S) (h64 : S * n ≤ 64) {coordOf : ℝ → Coord}
    (hc : ∀ i < n, coordOf (i : ℝ) = .flt (.fin i)) (t : ℝ) {specs : List HVal} {kets : List ℕ}
    {subs : List (List ℕ × HNum)} (hk : baseVectors specs = .ok kets)
    (hsub : specs.mapM preprocess = .ok subs) (hrep : NoRepeats subs) (hsp : SpeciesWise n S subs) :
    ∃ U, chainSetup order porder (10 ^ p) coordOf prec n ((List.range S).map fun s : ℕ => (s : ℤ)) t specs =
        some (.ok U) ∧
      U.basis = kets ∧
      (∀ s < S, ∀ i < n, ∀ st, StateID.init (10 ^ p) [coordOf (i : ℝ)] (s : ℤ) = .ok st →
        U.table.queryIndex st = .ok ((s * n + i : ℕ) : ℤ)) ∧
      ∀ r c : Fin U.basis.length,
        U.HM r c = matrixElement (ringHamiltonian n S t) (occ U.basis[r]) (occ U.basis[c]) := by
  classical
  have hst := states_of_exact p hp hz hc
  obtain ⟨L0, e1, e2, e3, e4, e5⟩ := chain_lat (prec := prec) hprec hn (n1 := 1) (n2 := 1) le_rfl le_rfl
  obtain ⟨L1, f1, f2⟩ := C84_chain_bonds (prec := prec) (order 1) (horder 1) porder hporder hprec hn
    (n1 := 1) (n2 := 1) le_rfl le_rfl
  rw [e1] at f1
  cases f1
  obtain ⟨-, ⟨L', intra, inter, back, hb, hintra, hinter⟩, -⟩ := f2 [] 1 le_rfl
  rw [List.foldl_nil, Nat.cast_one] at hb
  obtain ⟨-, -, -, -, -, -, -, -, -, -, hpts, hvec, -⟩ := C51_bonds_exact (order 1) (horder 1) porder hporder hb
  have hdec : ∀ z : ℤ, ∃ y, decompose prec L' ![(z : ℝ)] = some (.ok (![((res n z : ℕ) : ℝ)], y)) := by
    intro z
    have hr : ((res n z : ℕ) : ℤ) = z % n := by
      unfold res
      rw [Int.floor_intCast]
      have := Int.emod_nonneg z (show (n : ℤ) ≠ 0 by omega)
      omega
    have := (e5 ⟨res n z, res_lt hn _⟩ (fun _ => z / n)).1
    rw [e2, e3, comb_chain, pt_add] at this
    refine ⟨![((z / n : ℤ) : ℝ) * n], ?_⟩
    have h2 := Int.emod_add_mul_ediv z n
    have h3 : ((res n z : ℕ) : ℝ) + ((z / n : ℤ) : ℝ) * n = (z : ℝ) := by
      have : ((z % n + n * (z / n) : ℤ) : ℝ) = (z : ℝ) := by rw [h2]
      rw [← hr, Int.cast_add, Int.cast_mul, Int.cast_natCast, Int.cast_natCast] at this
      linarith
    dsimp only at this
    rw [h3] at this
    rw [decompose_congr hpts hvec]
    exact this
  have : Nonempty ParticleTerm := ⟨⟨[], 0, .general⟩⟩
  choose! T hT using fun (s i j : ℕ) (hi : i < n) (hj : j < n) => hop_term hst (t : ℂ) (s := s) hi hj
  have hbs : ∀ b ∈ intra ++ inter, ∃ z w : ℤ, b = (![(z : ℝ)], ![(w : ℝ)]) := by
    intro b hb
    rcases List.mem_append.1 hb with hb | hb
    · obtain ⟨a, -, rfl⟩ := List.mem_map.1 (hintra.mem_iff.1 hb)
      exact ⟨a, a + 1, by simp [forward]⟩
    · obtain ⟨a, -, rfl⟩ := List.mem_map.1 (hinter.mem_iff.1 hb)
      split
      · exact ⟨((a + 1) % n : ℕ), ((a + 1) % n : ℕ) - 1, by simp only [backward, Int.cast_sub, Int.cast_natCast,
          Nat.cast_one, Int.cast_one]⟩
      · exact ⟨a, a + 1, by simp [forward]⟩
  have hne : intra ++ inter ≠ [] := by
    intro h0
    have h1 : inter = [] := (List.append_eq_nil_iff.1 h0).2
    rw [h1] at hinter
    have h2 := hinter.length_eq
    rw [List.length_map, List.length_nil] at h2
    have h3 := List.eq_nil_of_length_eq_zero h2.symm
    rw [List.filter_eq_nil_iff] at h3
    have := h3 (n - 1) (List.mem_range.2 (by omega))
    simp only [decide_eq_true_eq] at this
    omega
  have hterms : hoppingTerms (order 1) porder (10 ^ p) coordOf prec L0
      ((List.range S).map fun s : ℕ => (s : ℤ)) t = some (.ok ((intra ++ inter).flatMap fun b =>
        (List.range S).map fun s => T s (res n (b.1 0)) (res n (b.2 0)))) := by
    unfold hoppingTerms
    rw [hb]
    exact termLoop_ok hn hdec (fun s i j hi hj => (hT s i j hi hj).1) _ hbs
  obtain ⟨table, objs, ht1, ht2, ht3⟩ := stateTable_ok hst hn hS (L := L0) e2
  have hB := (C15_base_vectors_ascending specs .array kets hk subs hsub hrep).1
  have hH := hamiltonian_ok ht2 ht3 hS hn h64 hB (hopClosed_of_speciesWise h64 hk hsub hrep hsp)
    (fun s i j hi hj => (hT s i j hi hj).2) (intra ++ inter) hne
  refine ⟨⟨table, kets, opMat kets (ringHamiltonian n S t)⟩, ?_, rfl, ?_, ?_⟩
  rotate_left 2
  · intro r c
    exact opMat_apply kets (ringHamiltonian n S t) r c
  · unfold chainSetup
    rw [e1]
    dsimp only
    rw [hterms]
    dsimp only
    rw [hk]
    simp only [bind, Except.bind]
    rw [ht1]
    dsimp only
    rw [hH]
    dsimp only [pure, Except.pure]
    rw [ring_sum hn (hopPair n S) (fun i j => Finset.sum_congr rfl fun s _ => add_comm _ _) hintra hinter]
    rfl
  · intro s hs i hi st hst'
    rw [hst.init_eq s i hi] at hst'
    cases hst'
    exact ht3 s hs i hi

/-- **C85 (the bases used).** The calls of `base_vectors` in NNTBChain1.py to NNTBChain4.py meet the
hypotheses of `C85_hamiltonian` for every number of sites: all states (then the basis is
`0, 1, ..., 2^(S n) - 1`), a fixed total number of particles, and fixed numbers for both spins. -/
theorem C85_demo_bases {n : ℕ} (hn : 1 ≤ n) :
    (∀ S : ℕ, 1 ≤ S → S * n ≤ 64 →
      (∃ subs, baseVectors [.int (S * n : ℕ)] = .ok (List.range (2 ^ (S * n))) ∧
        [HVal.int (S * n : ℕ)].mapM preprocess = .ok subs ∧ NoRepeats subs ∧ SpeciesWise n S subs) ∧
      ∀ N : ℤ, N ≤ (S * n : ℕ) → ∃ kets subs,
        baseVectors [.list [.int (S * n : ℕ), .int N]] = .ok kets ∧
        [HVal.list [.int (S * n : ℕ), .int N]].mapM preprocess = .ok subs ∧ NoRepeats subs ∧
        SpeciesWise n S subs) ∧
    (2 * n ≤ 64 → ∀ Nup Ndown : ℤ, Nup ≤ n → Ndown ≤ n → ∃ kets subs,
      let up := HVal.list ((List.range n).map fun i : ℕ => .int (n + i : ℕ))
      let down := HVal.list ((List.range n).map fun i : ℕ => .int i)
      baseVectors [.list [up, .int Nup], .list [down, .int Ndown]] = .ok kets ∧
      [HVal.list [up, .int Nup], .list [down, .int Ndown]].mapM preprocess = .ok subs ∧ NoRepeats subs ∧
      SpeciesWise n 2 subs) := by
  refine ⟨fun S hS h64 => ⟨?_, fun N hN => ?_⟩, fun h64 Nup Ndown hup hdown => ?_⟩
  · have hpos : 0 < S * n := Nat.mul_pos hS hn
    have hpre : [HVal.int (S * n : ℕ)].mapM preprocess = .ok [(List.range (S * n), HNum.int (-1))] := by
      rw [mapM_ok_iff]
      exact .cons ((C17_standard_form _ _).2 (.count _ hpos)) .nil
    have hrep : NoRepeats [(List.range (S * n), HNum.int (-1))] := by
      intro s hs; rw [List.mem_singleton] at hs; subst hs; exact List.nodup_range
    obtain ⟨kets, hk⟩ := C19_below_64_succeeds _ _ hpre hrep (by simp) (by simp) (by simp; omega) true
    refine ⟨_, ?_, hpre, hrep, ?_, ?_⟩
    · rw [hk]
      congr 1
      refine eq_of_ascending (C15_base_vectors_ascending _ _ kets hk _ hpre hrep).1 (range_ascending _) ?_
      intro k
      rw [C14_base_vectors_exact _ _ _ kets hk _ hpre hrep, List.mem_range]
      unfold AllowedKet
      simp only [List.mem_singleton, exists_eq_left, forall_eq, HNum.int.injEq, List.mem_range]
      constructor
      · rintro ⟨h, -⟩
        by_contra hcon
        obtain ⟨i, hi, hb⟩ := Nat.exists_ge_and_testBit_of_ge_two_pow (not_lt.1 hcon)
        have := h i hb
        omega
      · intro hk
        refine ⟨fun i hi => occ_range_mem hk i ((mem_occ i k).2 hi), ?_⟩
        intro M h1 h2
        omega
    · intro q hq
      exact ⟨_, List.mem_singleton_self _, List.mem_range.2 hq⟩
    · intro p hp ⟨M, hM⟩
      rw [List.mem_singleton] at hp
      subst hp
      simp only [Fixed, HNum.int.injEq] at hM
      omega
  · have hpos : 0 < S * n := Nat.mul_pos hS hn
    have hpre : [HVal.list [.int (S * n : ℕ), .int N]].mapM preprocess =
        .ok [(List.range (S * n), HNum.int N)] := by
      rw [mapM_ok_iff]
      exact .cons ((C17_standard_form _ _).2 (.pairCount _ _ (.int N) hpos hN (.inr rfl))) .nil
    have hrep : NoRepeats [(List.range (S * n), HNum.int N)] := by
      intro s hs; rw [List.mem_singleton] at hs; subst hs; exact List.nodup_range
    obtain ⟨kets, hk⟩ := C19_below_64_succeeds _ _ hpre hrep (by simp) (by simp) (by simp; omega) true
    refine ⟨kets, _, hk, hpre, hrep, ?_, ?_⟩
    · intro q hq
      exact ⟨_, List.mem_singleton_self _, List.mem_range.2 hq⟩
    · intro p hp _ s hs
      rw [List.mem_singleton] at hp
      subst hp
      refine .inl fun i hi => List.mem_range.2 ?_
      have : (s + 1) * n ≤ S * n := Nat.mul_le_mul_right n hs
      rw [Nat.add_mul] at this
      omega
  · have e1 : ((List.range n).map fun i : ℕ => n + i).map (fun i : ℕ => HVal.int i) =
        (List.range n).map fun i : ℕ => HVal.int (n + i : ℕ) := by
      rw [List.map_map]; rfl
    have hpre : [HVal.list [.list ((List.range n).map fun i : ℕ => .int (n + i : ℕ)), .int Nup],
        .list [.list ((List.range n).map fun i : ℕ => .int i), .int Ndown]].mapM preprocess =
        .ok [((List.range n).map fun i : ℕ => n + i, HNum.int Nup), (List.range n, HNum.int Ndown)] := by
      rw [mapM_ok_iff]
      refine .cons ((C17_standard_form _ _).2 (.pairStates _ _ _ (.int Nup) ?_ (.inr (.inl rfl)) ?_ (.inr ?_)))
        (.cons ((C17_standard_form _ _).2 (.pairStates _ _ _ (.int Ndown) ?_ (.inr (.inl rfl)) ?_ (.inr rfl))) .nil)
      · simp; omega
      · simpa [NumLe] using hup
      · rw [e1]; rfl
      · simp; omega
      · simpa [NumLe] using hdown
    have hrep : NoRepeats [((List.range n).map fun i : ℕ => n + i, HNum.int Nup),
        (List.range n, HNum.int Ndown)] := by
      intro s hs
      simp only [List.mem_cons, List.not_mem_nil, or_false] at hs
      rcases hs with rfl | rfl
      · exact List.nodup_range.map fun a b h => Nat.add_left_cancel h
      · exact List.nodup_range
    obtain ⟨kets, hk⟩ := C19_below_64_succeeds _ _ hpre hrep
      (by simp) (by simp) (by simp; constructor <;> intros <;> omega) true
    refine ⟨kets, _, hk, hpre, hrep, ?_, ?_⟩
    · intro q hq
      by_cases hqn : q < n
      · exact ⟨(List.range n, HNum.int Ndown), by simp, List.mem_range.2 hqn⟩
      · refine ⟨((List.range n).map fun i : ℕ => n + i, HNum.int Nup), by simp, List.mem_map.2 ?_⟩
        exact ⟨q - n, List.mem_range.2 (by omega), by omega⟩
    · intro p hp _ s hs
      simp only [List.mem_cons, List.not_mem_nil, or_false] at hp
      obtain rfl | rfl : s = 0 ∨ s = 1 := by omega
      · rcases hp with rfl | rfl
        · exact .inr fun i hi h => by
            obtain ⟨a, ha, he⟩ := List.mem_map.1 h
            omega
        · exact .inl fun i hi => List.mem_range.2 (by omega)
      · rcases hp with rfl | rfl
        · exact .inl fun i hi => List.mem_map.2 ⟨i, List.mem_range.2 hi, by omega⟩
        · exact .inr fun i hi h => by
            have := List.mem_range.1 h
            omega

/-- NNTBChain1.py itself: eight sites, default precisions, coordinates that are exact doubles.  The
element between `|00000001>` and `|00000010>` of the Hamiltonian it builds is `t`. -/
example : ∃ (coordOf : ℝ → Coord) (U : Setup),
    chainSetup (fun _ => id) (fun _ => id) (10 ^ 4) coordOf 4 8 [0] 1 [.int 8] = some (.ok U) ∧
    U.basis = List.range (2 ^ 8) ∧
    ∀ r c : Fin U.basis.length, U.basis[r] = 1 → U.basis[c] = 2 → U.HM r c = 1 := by
  classical
  obtain ⟨subs, h1, h2, h3, h4⟩ := ((C85_demo_bases (n := 8) (by norm_num)).1 1 le_rfl (by norm_num)).1
  refine ⟨fun x => .flt (.fin ⌊x⌋), ?_⟩
  obtain ⟨U, hU, hB, -, hH⟩ := C85_hamiltonian (prec := 4) (p := 4) (n := 8) (S := 1) (fun _ => id)
    (fun _ l => List.Perm.refl l) (fun _ => id) (fun _ l => List.Perm.refl l) (by norm_num) (by norm_num)
    (by norm_num) (by norm_num) le_rfl (by norm_num) (coordOf := fun x => .flt (.fin ⌊x⌋))
    (fun i _ => by simp) 1 h1 h2 h3 h4
  refine ⟨U, by simpa using hU, hB, fun r c hr hc => ?_⟩
  have o1 : occ 1 = {0} := by decide
  have o2 : occ 2 = {1} := by decide
  have key : ∀ i j : ℕ, matrixElement (create i * annihilate j) {0} {1} = if i = 0 ∧ j = 1 then 1 else 0 := by
    intro i j
    unfold matrixElement
    rw [Module.End.mul_apply, annihilate_ket]
    by_cases hj : j = 1
    · subst hj
      rw [if_pos (by simp), map_smul, show ({1} : Finset ℕ).erase 1 = ∅ from rfl, create_ket,
        if_neg (by simp)]
      simp only [jwSign, ket, Finset.filter_singleton, Finset.filter_empty, lt_irrefl, if_false, Finset.card_empty,
        pow_zero, one_smul, Finsupp.single_apply, and_true]
      by_cases hi : i = 0
      · simp [hi]
      · have : ¬ ({i} : Finset ℕ) = {0} := by simpa using hi
        simp [hi, this]
    · rw [if_neg (by simpa using hj)]
      simp [hj]
  have hadd : ∀ O P : Module.End ℂ Fock, matrixElement (O + P) {0} {1} =
      matrixElement O {0} {1} + matrixElement P {0} {1} := fun O P => by simp [matrixElement]
  rw [hH, hr, hc, o1, o2]
  simp only [ringHamiltonian, hopPair, Complex.ofReal_one, one_smul, Finset.sum_range_succ, Finset.sum_range_zero,
    zero_add, zero_mul, hadd, key]
  norm_num

end Verif.Demo
