import Verif.Model.DemoHubbard
import Verif.Proofs.DemoFinish
import Verif.Spec.Hubbard
/-!
# Lemmas for C91: the Hamiltonian of HubbardChain.py
-/

namespace Verif.Demo

open Latt LDB Spec Matrix Lanczos GF

/-- The matrix of one term. -/
theorem term_matrix {objs : List StateID} {table : IndexTable StateID} (hT : IndexTable.init objs 0 = .ok table)
    {B : List ℕ} (hB : B.Pairwise (· < ·)) {T : ParticleTerm} (hcompat : T.checkCompatibility = true)
    {term : List (ℤ × Otype)} (hind : T.aocs.mapM (fun a => do return (← table.queryIndex a.state, a.otype)) = .ok term)
    (hv : ValidTerm term) (hcl : MapsTo (termOperator term) B B) :
    ∃ M, (T.matrixRepr table B).2 = .ok M ∧
      (Matrix.of fun r c : Fin B.length => M.get r c) = opMat B (T.coeff • termOperator term) := by
  rw [C23_compatible_terms_partial objs 0 table hT T B none hcompat fun _ => ⟨rfl, hB⟩, matrixRepr_none]
  have hind : ({ T with classification := .general } : ParticleTerm).indexed table = .ok term := hind
  rw [hind]
  obtain ⟨M, hM⟩ := general_csr_of (right := B) (left := none) T.coeff hv hB (fun h => h) (mapsTo_iff_image.1 hcl)
  refine ⟨M, hM, ?_⟩
  ext r c
  rw [Matrix.of_apply, general_csr_get hM (hB.imp fun h => Nat.ne_of_lt h) r c r.2 c.2, map_smul, Matrix.smul_apply,
    opMat_apply]
  rfl

/-- The sum of the matrices of the terms, made Hermitian. -/
theorem hamiltonian_of {table : IndexTable StateID} {B : List ℕ}
    (l : List (ParticleTerm × Module.End ℂ Fock × Module.End ℂ Fock)) (hne : l ≠ [])
    (h : ∀ x ∈ l, IsAdj x.2.2 x.2.1 ∧ ∃ M, (x.1.matrixRepr table B).2 = .ok M ∧
      (Matrix.of fun r c : Fin B.length => M.get r c) = opMat B x.2.1) :
    hamiltonian table B (l.map Prod.fst) = .ok (opMat B (l.map fun x => x.2.1 + x.2.2).sum) := by
  have : Nonempty Csr := ⟨⟨0, 0, []⟩⟩
  choose! G hG using fun x hx => (h x hx).2
  have hmap : (l.map Prod.fst).mapM (fun term => (term.matrixRepr table B).2) = .ok (l.map G) := by
    rw [mapM_ok_iff]
    clear hne h
    induction l with
    | nil => exact .nil
    | cons x l ih => exact .cons (hG x (by simp)).1 (ih fun y hy => hG y (by simp [hy]))
  have hne' : l.map Prod.fst ≠ [] := by simpa using hne
  unfold hamiltonian
  rw [hmap]
  simp only [bind, Except.bind, if_neg hne', pure, Except.pure]
  congr 1
  rw [List.map_map, conjTranspose_list_sum, List.map_map, map_list_sum, List.map_map]
  clear hmap hne hne'
  induction l with
  | nil => simp
  | cons x l ih =>
    rw [List.map_cons, List.map_cons, List.map_cons, List.sum_cons, List.sum_cons, List.sum_cons, add_add_add_comm,
      ih (fun y hy => h y (by simp [hy])) (fun y hy => hG y (by simp [hy]))]
    congr 1
    simp only [Function.comp]
    rw [(hG x (by simp)).2, opMat_adj (h x (by simp)).1, map_add]

/-- The operator `n_up n_down` of one site. -/
noncomputable def doubly (n i : ℕ) : Module.End ℂ Fock :=
  (create (n + i) * annihilate (n + i)) * (create i * annihilate i)

theorem doubly_ket (n i : ℕ) (T : Finset ℕ) :
    doubly n i (ket T) = if n + i ∈ T ∧ i ∈ T then ket T else 0 := by
  unfold doubly
  rw [Module.End.mul_apply, number_ket]
  by_cases h : i ∈ T
  · rw [if_pos h, number_ket]
    simp [h]
  · simp [h]

theorem isAdj_doubly (n i : ℕ) : IsAdj (doubly n i) (doubly n i) := by
  intro S T
  unfold matrixElement
  rw [doubly_ket, doubly_ket]
  have k : ∀ S T : Finset ℕ, ket S T = if S = T then 1 else 0 := fun S T => Finsupp.single_apply
  by_cases hST : S = T
  · subst hST
    split <;> simp [k]
  · split <;> split <;> simp [k, hST, Ne.symm hST, eq_comm]

theorem mapsTo_doubly (n i : ℕ) (B : List ℕ) : MapsTo (doubly n i) B B := by
  intro k hk U hU
  rw [doubly_ket] at hU
  split at hU
  · refine ⟨k, hk, ?_⟩
    by_contra hne
    exact hU (by rw [ket, Finsupp.single_apply, if_neg (Ne.symm hne)])
  · exact absurd rfl hU

theorem termOperator_doubly (n i : ℕ) :
    termOperator [(((n + i : ℕ) : ℤ), .creation), (((n + i : ℕ) : ℤ), .annihilation), ((i : ℤ), .creation),
      ((i : ℤ), .annihilation)] = doubly n i := by
  have h : ((n : ℤ) + (i : ℤ)).toNat = n + i := by omega
  simp [termOperator, fockProduct, fockOp, doubly, mul_assoc, h]

theorem isAdj_hubbard (n : ℕ) (t U : ℝ) : IsAdj (hubbardHamiltonian n t U) (hubbardHamiltonian n t U) := by
  have h1 := isAdj_smul (isAdj_sum (s := Finset.range n) fun i _ => isAdj_doubly n i) (U : ℂ)
  have h2 := isAdj_smul (isAdj_sum (s := Finset.range (n - 1)) fun i _ => isAdj_sum (s := Finset.range 2) fun s _ =>
    isAdj_self_add (isAdj_hop (s * n + (i + 1)) (s * n + i)) (isAdj_hop (s * n + i) (s * n + (i + 1)))) (t : ℂ)
  have e : ∀ x : ℝ, star (x : ℂ) = x := fun x => Complex.conj_ofReal x
  rw [e] at h1 h2
  exact isAdj_add h1 h2

theorem mapsTo_hubbard {n : ℕ} {B : List ℕ} (h : HopClosed n 2 B) (t U : ℝ) : MapsTo (hubbardHamiltonian n t U) B B := by
  refine MapsTo.add (.smul (.sum fun i _ => mapsTo_doubly n i B) _) (.smul (.sum fun i hi => ?_) _)
  have hi := Finset.mem_range.1 hi
  unfold hopPair
  refine .sum fun s hs => ?_
  have hs := Finset.mem_range.1 hs
  refine MapsTo.add ?_ ?_
  · rw [← termOperator_hop, mapsTo_iff_image]
    exact h s hs i (by omega) _ (by omega)
  · rw [← termOperator_hop, mapsTo_iff_image]
    exact h s hs _ (by omega) i (by omega)

section

variable {prec : ℕ} {order : ∀ k : ℕ, List (Fin k → ℤ) → List (Fin k → ℤ)}
    {porder : ∀ N : ℕ, List (Fin N × Fin N) → List (Fin N × Fin N)} {zoom : ℤ} {n : ℕ} {coordOf : ℝ → Coord}
    {st : ℕ → ℕ → StateID}

/-- `decompose` on a chain. -/
theorem decompose_chain {n : ℕ} (hn : 1 ≤ n) {L : Lat n 1 1} (e2 : ∀ i, L.points i = ![((i : ℕ) : ℝ)])
    (e3 : L.vectors = ![![(n : ℝ)]]) (e5 : ∀ i c, FindsTranslate prec L i c) (z : ℤ) :
    decompose prec L ![(z : ℝ)] = some (.ok (![((res n z : ℕ) : ℝ)], ![((z / n : ℤ) : ℝ) * n])) := by
  have hr : ((res n z : ℕ) : ℤ) = z % n := by
    unfold res
    rw [Int.floor_intCast]
    have := Int.emod_nonneg z (show (n : ℤ) ≠ 0 by omega)
    omega
  have := (e5 ⟨res n z, res_lt hn _⟩ (fun _ => z / n)).1
  rw [e2, e3, comb_chain, pt_add] at this
  have h2 := Int.emod_add_mul_ediv z n
  have h3 : ((res n z : ℕ) : ℝ) + ((z / n : ℤ) : ℝ) * n = (z : ℝ) := by
    have : ((z % n + n * (z / n) : ℤ) : ℝ) = (z : ℝ) := by rw [h2]
    rw [← hr, Int.cast_add, Int.cast_mul, Int.cast_natCast, Int.cast_natCast] at this
    linarith
  dsimp only at this
  rw [h3] at this
  exact this

/-- The first part of the script. -/
theorem hubbardTerms_ok (horder : ∀ k l, (order k l).Perm l) (hporder : ∀ N l, (porder N l).Perm l) (hprec : 1 ≤ prec)
    (hst : States zoom coordOf n st) (hn : 1 ≤ n) (h64 : 2 * n ≤ 64) (t U : ℝ) :
    ∃ (L : Lat n 1 1) (inter : List (LBond 1)) (terms : List ParticleTerm) (table : IndexTable StateID),
      hubbardTerms order porder zoom coordOf prec n t U = some (.ok ⟨⟨n, 1, 1, L⟩, inter, terms, table⟩) ∧
      (∀ i, L.points i = ![((i : ℕ) : ℝ)]) ∧
      (∀ z : ℤ, decompose prec L ![(z : ℝ)] = some (.ok (![((res n z : ℕ) : ℝ)], ![((z / n : ℤ) : ℝ) * n]))) ∧
      (inter = [(![((n - 1 : ℕ) : ℝ)], ![(n : ℝ)])] ∨ inter = [(![0], ![-1])]) ∧
      (∀ s < 2, ∀ i < n, table.queryIndex (st s i) = .ok ((s * n + i : ℕ) : ℤ)) ∧
      ∀ B : List ℕ, B.Pairwise (· < ·) → HopClosed n 2 B →
        hamiltonian table B terms = .ok (opMat B (hubbardHamiltonian n t U)) := by
  classical
  obtain ⟨L0, e1, e2, e3, e4, e5⟩ := chain_lat (prec := prec) hprec hn (n1 := 1) (n2 := 1) le_rfl le_rfl
  obtain ⟨L1, f1, f2⟩ := C84_chain_bonds (prec := prec) (order 1) (horder 1) porder hporder hprec hn
    (n1 := 1) (n2 := 1) le_rfl le_rfl
  rw [e1] at f1
  cases f1
  obtain ⟨-, ⟨L', intra, inter, back, hb, hintra, hinter⟩, -⟩ := f2 [] 1 le_rfl
  rw [List.foldl_nil, Nat.cast_one] at hb
  obtain ⟨-, -, -, -, -, -, -, -, -, -, hpts, hvec, -⟩ := C51_bonds_exact (order 1) (horder 1) porder hporder hb
  have e2' : ∀ i, L'.points i = ![((i : ℕ) : ℝ)] := fun i => by rw [hpts, e2]
  have : Nonempty ParticleTerm := ⟨⟨[], 0, .general⟩⟩
  choose! T hT using fun (s i j : ℕ) (hi : i < n) (hj : j < n) => hop_term hst (t : ℂ) (s := s) hi hj
  choose! W hW using fun (i : ℕ) (hi : i < n) => C36_hubbard_factory zoom [coordOf (i : ℝ)] 0 ((U / 2 : ℝ) : ℂ)
    (st 1 i) (st 0 i) (by exact_mod_cast hst.init_eq 1 i hi) (by exact_mod_cast hst.init_eq 0 i hi)
  obtain ⟨table, objs, ht1, ht2, ht3⟩ := stateTable_ok hst hn (S := 2) (by norm_num) (L := L') e2'
  set l1 : List (ParticleTerm × Module.End ℂ Fock × Module.End ℂ Fock) := (List.range n).map fun i =>
    (W i, ((U / 2 : ℝ) : ℂ) • doubly n i, ((U / 2 : ℝ) : ℂ) • doubly n i) with hl1
  set l2 : List (ParticleTerm × Module.End ℂ Fock × Module.End ℂ Fock) := intra.flatMap fun b =>
    (List.range 2).map fun s => (T s (res n (b.1 0)) (res n (b.2 0)),
      (t : ℂ) • (create (s * n + res n (b.1 0)) * annihilate (s * n + res n (b.2 0))),
      (t : ℂ) • (create (s * n + res n (b.2 0)) * annihilate (s * n + res n (b.1 0)))) with hl2
  have hterms : hubbardTermList zoom coordOf L' t U intra = .ok ((l1 ++ l2).map Prod.fst) := by
    have a1 : (List.finRange n).mapM (fun i => hubbardFactory zoom (siteOf coordOf (L'.points i))
        (coeff := ((U / 2 : ℝ) : ℂ))) = .ok (l1.map Prod.fst) := by
      rw [hl1, List.map_map, ← List.map_coe_finRange_eq_range, List.map_map]
      refine mapM_ok_map fun i _ => ?_
      rw [e2', siteOf_pt]
      exact (hW i i.2).1
    have a2 : (intra.flatMap fun b => spinPair.map fun s => (b, s)).mapM (fun p : LBond 1 × ℤ =>
        hoppingFactory zoom (siteOf coordOf p.1.1) (siteOf coordOf p.1.2) (spin0 := p.2) (coeff := (t : ℂ))) =
        .ok (l2.map Prod.fst) := by
      have : l2.map Prod.fst = (intra.flatMap fun b => spinPair.map fun s => (b, s)).map
          fun p : LBond 1 × ℤ => T p.2.toNat (res n (p.1.1 0)) (res n (p.1.2 0)) := by
        rw [hl2, List.map_flatMap, List.map_flatMap]
        rfl
      rw [this]
      refine mapM_ok_map fun p hp => ?_
      obtain ⟨b, hb, hp⟩ := List.mem_flatMap.1 hp
      obtain ⟨s, hs, rfl⟩ := List.mem_map.1 hp
      obtain ⟨a, ha, rfl⟩ := List.mem_map.1 (hintra.mem_iff.1 hb)
      have ha := List.mem_range.1 ha
      obtain ⟨s, rfl⟩ : ∃ s' : ℕ, s = (s' : ℤ) := by
        simp only [spinPair, List.mem_cons, List.not_mem_nil, or_false] at hs
        rcases hs with rfl | rfl
        · exact ⟨0, rfl⟩
        · exact ⟨1, rfl⟩
      have r1 : res n ((forward 1 a).1 0) = a := res_of_eq (by omega) (z := 0) (by simp [forward])
      have r2 : res n ((forward 1 a).2 0) = a + 1 := res_of_eq (by omega) (z := 0) (by simp [forward])
      dsimp only
      rw [r1, r2, Int.toNat_natCast]
      have s1 : siteOf coordOf (forward 1 a).1 = [coordOf (a : ℝ)] := by simp [forward, siteOf_pt]
      have s2 : siteOf coordOf (forward 1 a).2 = [coordOf ((a + 1 : ℕ) : ℝ)] := by simp [forward, siteOf_pt]
      rw [s1, s2]
      exact (hT s a (a + 1) (by omega) (by omega)).1
    unfold hubbardTermList
    rw [a1]
    simp only [bind, Except.bind]
    rw [a2]
    rw [List.map_append]
    rfl
  refine ⟨L', inter, (l1 ++ l2).map Prod.fst, table, ?_, e2', ?_, ?_, ht3, ?_⟩
  · unfold hubbardTerms
    rw [e1]
    dsimp only
    rw [hb]
    dsimp only
    rw [hterms]
    simp only [bind, Except.bind]
    have ht1' : stateTable zoom coordOf L' spinPair = .ok table := ht1
    rw [ht1']
    rfl
  · intro z
    rw [decompose_congr hpts hvec]
    exact decompose_chain hn e2 e3 e5 z
  · obtain ⟨q, rfl⟩ : ∃ q, n = q + 1 := ⟨n - 1, by omega⟩
    have hfil : (List.range (q + 1)).filter (q + 1 ≤ · + 1) = [q] := by
      rw [List.range_succ, List.filter_append, List.filter_eq_nil_iff.2, List.nil_append]
      · simp
      · intro a ha
        have := List.mem_range.1 ha
        simp only [decide_eq_true_eq]
        omega
    rw [hfil, List.map_singleton, List.perm_singleton] at hinter
    rw [hinter]
    by_cases hback : back q
    · right
      rw [if_pos hback]
      simp [backward]
    · left
      rw [if_neg hback]
      simp [forward]
  · intro B hB hcl
    have hq0 : ∀ i < n, table.queryIndex (st 0 i) = .ok (i : ℤ) := fun i hi => by
      have := ht3 0 (by norm_num) i hi
      rwa [zero_mul, zero_add] at this
    have hq1 : ∀ i < n, table.queryIndex (st 1 i) = .ok ((n + i : ℕ) : ℤ) := fun i hi => by
      have := ht3 1 (by norm_num) i hi
      rwa [one_mul] at this
    have estar : ∀ x : ℝ, star (x : ℂ) = x := fun x => Complex.conj_ofReal x
    rw [hamiltonian_of (l1 ++ l2)]
    · congr 2
      rw [List.map_append, List.sum_append]
      unfold hubbardHamiltonian
      congr 1
      · rw [hl1, List.map_map, list_sum_range, Finset.smul_sum]
        refine Finset.sum_congr rfl fun i _ => ?_
        dsimp only [Function.comp]
        rw [← add_smul]
        congr 1
        push_cast
        ring
      · rw [hl2, sum_map_flatMap]
        have key : ∀ b : LBond 1, (((List.range 2).map fun s => ((T s (res n (b.1 0)) (res n (b.2 0)) : ParticleTerm),
            (t : ℂ) • (create (s * n + res n (b.1 0)) * annihilate (s * n + res n (b.2 0))),
            (t : ℂ) • (create (s * n + res n (b.2 0)) * annihilate (s * n + res n (b.1 0))))).map fun x => x.2.1 + x.2.2).sum =
            (t : ℂ) • hopPair n 2 (res n (b.1 0)) (res n (b.2 0)) := by
          intro b
          rw [List.map_map, list_sum_range]
          unfold hopPair
          rw [Finset.smul_sum]
          refine Finset.sum_congr rfl fun s _ => ?_
          rw [smul_add]
          rfl
        simp only [key]
        rw [(hintra.map _).sum_eq, List.map_map, list_sum_range, Finset.smul_sum]
        refine Finset.sum_congr rfl fun a ha => ?_
        have ha := Finset.mem_range.1 ha
        have r1 : res n ((forward 1 a).1 0) = a := res_of_eq (by omega) (z := 0) (by simp [forward])
        have r2 : res n ((forward 1 a).2 0) = a + 1 := res_of_eq (by omega) (z := 0) (by simp [forward])
        dsimp only [Function.comp]
        rw [r1, r2]
    · rw [hl1]
      obtain ⟨q, rfl⟩ : ∃ q, n = q + 1 := ⟨n - 1, by omega⟩
      simp [List.range_succ]
    · intro x hx
      rcases List.mem_append.1 hx with hx | hx
      · obtain ⟨i, hi, rfl⟩ := List.mem_map.1 hx
        have hi := List.mem_range.1 hi
        obtain ⟨-, w2, w3, w4, -⟩ := hW i hi
        refine ⟨?_, ?_⟩
        · have := isAdj_smul (isAdj_doubly n i) ((U / 2 : ℝ) : ℂ)
          rwa [estar] at this
        · dsimp only
          rw [← w3, ← termOperator_doubly]
          refine term_matrix ht2 hB w4 ?_ ?_ ?_
          · rw [w2, mapM_ok_iff]
            exact .cons (by simp [hq1 i hi, bind, Except.bind, pure, Except.pure])
              (.cons (by simp [hq1 i hi, bind, Except.bind, pure, Except.pure])
              (.cons (by simp [hq0 i hi, bind, Except.bind, pure, Except.pure])
              (.cons (by simp [hq0 i hi, bind, Except.bind, pure, Except.pure]) .nil)))
          · refine ⟨by simp, fun p hp => ?_⟩
            simp only [List.mem_cons, List.not_mem_nil, or_false] at hp
            rcases hp with rfl | rfl | rfl | rfl <;> dsimp only <;> omega
          · rw [termOperator_doubly]
            exact mapsTo_doubly n i B
      · obtain ⟨b, hb, hx⟩ := List.mem_flatMap.1 hx
        obtain ⟨s, hs, rfl⟩ := List.mem_map.1 hx
        obtain ⟨a, ha, rfl⟩ := List.mem_map.1 (hintra.mem_iff.1 hb)
        have ha := List.mem_range.1 ha
        have hs := List.mem_range.1 hs
        have r1 : res n ((forward 1 a).1 0) = a := res_of_eq (by omega) (z := 0) (by simp [forward])
        have r2 : res n ((forward 1 a).2 0) = a + 1 := res_of_eq (by omega) (z := 0) (by simp [forward])
        dsimp only
        rw [r1, r2]
        obtain ⟨-, w2, w3, w4⟩ := hT s a (a + 1) (by omega) (by omega)
        refine ⟨?_, ?_⟩
        · have := isAdj_smul (isAdj_hop (s * n + a) (s * n + (a + 1))) (t : ℂ)
          rwa [estar] at this
        · rw [← termOperator_hop]
          have hc := hcl s hs a (by omega) (a + 1) (by omega)
          rw [← w3]
          refine term_matrix ht2 hB w4 ?_ ?_ (mapsTo_iff_image.2 hc)
          · rw [w2, mapM_ok_iff]
            exact .cons (by simp [ht3 s hs a (by omega), bind, Except.bind, pure, Except.pure])
              (.cons (by simp [ht3 s hs (a + 1) (by omega), bind, Except.bind, pure, Except.pure]) .nil)
          · refine ⟨by simp, fun p hp => ?_⟩
            have l1 := site_lt (S := 2) hs (i := a) (n := n) (by omega)
            have l2 := site_lt (S := 2) hs (i := a + 1) (n := n) (by omega)
            simp only [List.mem_cons, List.not_mem_nil, or_false] at hp
            rcases hp with rfl | rfl <;> dsimp only <;> omega

end

end Verif.Demo
