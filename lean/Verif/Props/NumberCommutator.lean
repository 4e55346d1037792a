import Verif.Props.Sectors
import Verif.Props.Conservation
/-!
# C72: the commutator of a term with the particle number
-/

namespace Verif
open Spec

/-- How many particles the term adds to the given states: creation operators on them minus annihilation
operators on them. -/
def addedParticles (states : List StateID) (t : ParticleTerm) : ℤ :=
  (t.aocs.map (fun a =>
    if states.any (fun s => PyObj.eq s a.state) then (if a.otype = .creation then 1 else -1) else 0)).sum

theorem addedParticles_eq {objs : List StateID} {s : ℤ} {table : IndexTable StateID}
    (hT : IndexTable.init objs s = .ok table) (states : List StateID) (idx : List ℕ)
    (hidx : List.Forall₂ (fun (a : StateID) (i : ℕ) => table.queryIndex a = .ok (i : ℤ)) states idx)
    (t : ParticleTerm) (hq : ∀ a ∈ t.aocs, ∃ i, table.queryIndex a.state = .ok i)
    (h0 : ∀ p ∈ t.aocs.map (indexedAoC table), 0 ≤ p.1) :
    (opCount (natTerm (t.aocs.map (indexedAoC table))) .creation idx : ℤ) -
      opCount (natTerm (t.aocs.map (indexedAoC table))) .annihilation idx = addedParticles states t := by
  unfold addedParticles
  generalize t.aocs = l at hq h0
  induction l with
  | nil => simp [natTerm, opCount]
  | cons a l ih =>
    have ih := ih (fun b hb => hq b (List.mem_cons_of_mem _ hb)) (fun p hp => h0 p (List.mem_cons_of_mem _ hp))
    obtain ⟨i, hi⟩ := hq a List.mem_cons_self
    have hi0 : 0 ≤ i := by
      have := h0 (indexedAoC table a) (by simp)
      simpa [indexedAoC, hi, Except.toOption] using this
    have e : natTerm ((a :: l).map (indexedAoC table)) =
        (i.toNat, a.otype) :: natTerm (l.map (indexedAoC table)) := by
      simp [natTerm, indexedAoC, hi, Except.toOption]
    have hmem : i.toNat ∈ idx ↔ states.any (fun s => PyObj.eq s a.state) = true := by
      rw [List.any_eq_true]
      constructor
      · intro h
        obtain ⟨q, hq', he⟩ := List.getElem_of_mem h
        have hlen := forall₂_length hidx
        have := forall₂_getElem hidx q (by omega)
        refine ⟨states[q]'(by omega), List.getElem_mem _, ?_⟩
        rw [stateEq_iff]
        refine queryIndex_inj hT (i := i) ?_ hi
        rw [this, he]; congr 1; omega
      · rintro ⟨x, hx, hxa⟩
        rw [stateEq_iff] at hxa
        obtain ⟨q, hq', rfl⟩ := List.getElem_of_mem hx
        have := forall₂_getElem hidx q hq'
        rw [queryIndex_congr table _ _ hxa, hi] at this
        have h2 := Except.ok.inj this
        rw [h2]
        simp
    rw [e, opCount_cons, opCount_cons, List.map_cons, List.sum_cons, ← ih]
    by_cases hin : i.toNat ∈ idx
    · rw [if_pos (hmem.mp hin)]
      cases a.otype <;> simp [hin] <;> ring
    · rw [if_neg (fun h => hin (hmem.mpr h))]
      simp [hin]

/-- **C72** (selection rule).  A nonzero matrix element leads from a ket to one whose number of particles in the
given (distinct) states is larger by the number of particles the term adds to them. -/
theorem C72_selection_rule (objs : List StateID) (s : ℤ) (table : IndexTable StateID)
    (hT : IndexTable.init objs s = .ok table) (states : List StateID) (idx : List ℕ) (hnd : idx.Nodup)
    (hidx : List.Forall₂ (fun (a : StateID) (i : ℕ) => table.queryIndex a = .ok (i : ℤ)) states idx)
    (t : ParticleTerm) (hct : t.checkCompatibility = true) (R L : List ℕ) (hL : L.Pairwise (· < ·))
    (hdt : t.classification = .number ∨ t.classification = .coulomb → L = R)
    (M : Csr) (hM : (t.matrixRepr table R (some L)).2 = .ok M)
    (r : ℕ) (hr : r < L.length) (j : ℕ) (hj : j < R.length) (hne : M.get r j ≠ 0) :
    (particlesIn idx L[r] : ℤ) = particlesIn idx R[j] + addedParticles states t := by
  obtain ⟨term, hterm, hv, hget, -⟩ := compat_elements hT hct hL hdt hM
  obtain ⟨hq, rfl⟩ := indexed_ok_iff.mp hterm
  rw [hget r hr j hj, matrixElement_eq] at hne
  rw [← addedParticles_eq hT states idx hidx t hq (fun p hp => (hv.2 p hp).1)]
  cases hi : image (t.aocs.map (indexedAoC table)) R[j] with
  | none => rw [hi] at hne; simp at hne
  | some p =>
    obtain ⟨k', b⟩ := p
    rw [hi] at hne
    simp only at hne
    have hk : k' = L[r] := by
      by_contra h
      rw [if_neg h] at hne
      simp at hne
    subst hk
    unfold image at hi
    rw [← List.map_reverse] at hi
    have := applyRows_conserve _ idx hnd _ _ _ _ hi
    have hrev : ∀ o, opCount (natTerm (t.aocs.map (indexedAoC table))).reverse o idx =
        opCount (natTerm (t.aocs.map (indexedAoC table))) o idx := by
      intro o
      unfold opCount
      rw [List.filter_reverse, List.length_reverse]
    rw [hrev, hrev] at this
    unfold particlesIn
    omega

theorem number_sum_diagonal (table : IndexTable StateID) (ns : List NumberOperator)
    (idx : List ℕ) (hidx : List.Forall₂
      (fun (n : NumberOperator) (i : ℕ) => table.queryIndex n.state = .ok (i : ℤ)) ns idx)
    (bases : List ℕ) (hn : bases.Nodup) (Ms : List Csr)
    (hM : List.Forall₂ (fun n M => NumberOperator.matrixRepr n table bases = .ok M) ns Ms) :
    sumMatrix bases.length Ms = Matrix.diagonal (fun j => (particlesIn idx bases[j] : ℂ)) := by
  unfold sumMatrix
  induction hidx generalizing Ms with
  | nil => cases hM; ext r j; simp [particlesIn, Matrix.diagonal_apply]
  | @cons n i ns idx hq _ ih =>
    cases hM with
    | @cons _ M _ Ms hM h2 =>
      rw [List.map_cons, List.sum_cons, ih Ms h2]
      obtain ⟨⟨i', hi0, hi', hd⟩, -⟩ := C28_number_operator_matrix table 0 n bases hn M hM
      rw [hq] at hi'
      cases hi'
      rw [hd]
      ext r j
      simp only [Matrix.add_apply, Matrix.diagonal_apply, Int.toNat_natCast, particlesIn, List.filter_cons]
      by_cases h : r = j
      · subst h
        simp only [if_true]
        by_cases hb : bases[(r : ℕ)].testBit i = true
        · simp [hb, add_comm]
        · simp [hb]
      · simp [h]

/-- **C72** (commutator).  On any ascending basis on which the term can be represented, the commutator of the total
number operator of a set of distinct states with the term is the term times the number of particles it
adds to these states; so a term that adds none commutes with their number operator. -/
theorem C72_number_commutator (objs : List StateID) (s : ℤ) (table : IndexTable StateID)
    (hT : IndexTable.init objs s = .ok table) (ns : List NumberOperator)
    (hdist : ns.Pairwise (fun a b => PyObj.eq a.state b.state = false)) (bases : List ℕ)
    (hB : bases.Pairwise (· < ·)) (Ns : List Csr)
    (hN : List.Forall₂ (fun n M => NumberOperator.matrixRepr n table bases = .ok M) ns Ns)
    (t : ParticleTerm) (hct : t.checkCompatibility = true)
    (M : Csr) (hM : (t.matrixRepr table bases).2 = .ok M) :
    let N := sumMatrix bases.length Ns
    let A := M.toMatrix bases.length bases.length
    N * A - A * N = (addedParticles (ns.map (fun n => n.state)) t : ℂ) • A := by
  intro N A
  have hn : bases.Nodup := hB.imp (fun h => Nat.ne_of_lt h)
  have hex : ∃ idx : List ℕ, List.Forall₂
      (fun (n : NumberOperator) (i : ℕ) => table.queryIndex n.state = .ok (i : ℤ)) ns idx := by
    clear hdist
    induction hN with
    | nil => exact ⟨[], .nil⟩
    | @cons n M' ns Ms h _ ih =>
      obtain ⟨idx, hidx⟩ := ih
      obtain ⟨⟨i, hi0, hi, -⟩, -⟩ := C28_number_operator_matrix table 0 n bases hn M' h
      exact ⟨i.toNat :: idx, .cons (by rw [hi]; congr 1; omega) hidx⟩
  obtain ⟨idx, hidx⟩ := hex
  have hnd : idx.Nodup := by
    have hlen := forall₂_length hidx
    rw [List.nodup_iff_pairwise_ne, List.pairwise_iff_getElem]
    intro i j hi hj hij he
    have h1 := forall₂_getElem hidx i (by omega)
    have h2 := forall₂_getElem hidx j (by omega)
    rw [he] at h1
    have h3 := queryIndex_inj hT h1 h2
    have h4 := List.pairwise_iff_getElem.mp hdist i j (by omega) (by omega) hij
    rw [← stateEq_iff] at h3
    rw [h3] at h4
    cases h4
  have hd : N = _ := number_sum_diagonal table ns idx hidx bases hn Ns hN
  have hidx' : List.Forall₂ (fun (a : StateID) (i : ℕ) => table.queryIndex a = .ok (i : ℤ))
      (ns.map (fun n => n.state)) idx := by
    rw [List.forall₂_map_left_iff]; exact hidx
  rw [hd]
  ext r j
  rw [Matrix.sub_apply, Matrix.diagonal_mul, Matrix.mul_diagonal, Matrix.smul_apply, smul_eq_mul]
  by_cases h : A r j = 0
  · rw [h]; ring
  · have := C72_selection_rule objs s table hT _ idx hnd hidx' t hct bases bases hB (fun _ => rfl) M hM
      r r.2 j j.2 h
    have h2 : (particlesIn idx bases[r] : ℂ) = particlesIn idx bases[j] +
        (addedParticles (ns.map (fun n => n.state)) t : ℂ) := by exact_mod_cast this
    rw [h2]
    ring

/-- Non-vacuity of C72: the pair creation term `c_0^dagger c_1^dagger` adds two particles; a hopping term adds none to
both states together and one to the first. -/
example :
    ∃ (s0 s1 : StateID) (T : IndexTable StateID) (t u : ParticleTerm) (M N0 N1 : Csr),
      StateID.init defaultZoom [.int 0] = .ok s0 ∧ StateID.init defaultZoom [.int 1] = .ok s1 ∧
      IndexTable.init [s0, s1] 0 = .ok T ∧
      t = ⟨[⟨.creation, s0⟩, ⟨.creation, s1⟩], 2, .general⟩ ∧
      u = ⟨[⟨.creation, s0⟩, ⟨.annihilation, s1⟩], 2, .hopping⟩ ∧ t.checkCompatibility = true ∧
      [(⟨s0⟩ : NumberOperator), ⟨s1⟩].Pairwise (fun a b => PyObj.eq a.state b.state = false) ∧
      addedParticles [s0, s1] t = 2 ∧ addedParticles [s0, s1] u = 0 ∧ addedParticles [s0] u = 1 ∧
      (t.matrixRepr T [0, 1, 2, 3]).2 = .ok M ∧
      NumberOperator.matrixRepr ⟨s0⟩ T [0, 1, 2, 3] = .ok N0 ∧
      NumberOperator.matrixRepr ⟨s1⟩ T [0, 1, 2, 3] = .ok N1 := by
  have h1 : matrixData [(0, .creation), (1, .creation)] [0, 1, 2, 3] none .general =
      .ok [(3, 0, 1), (0, 0, 0), (0, 0, 0), (0, 0, 0)] := rfl
  have h2 : matrixData [(0, .creation), (0, .annihilation)] [0, 1, 2, 3] none .number =
      .ok [(0, 0, 0), (1, 1, 1), (0, 0, 0), (3, 3, 1)] := rfl
  have h3 : matrixData [(1, .creation), (1, .annihilation)] [0, 1, 2, 3] none .number =
      .ok [(0, 0, 0), (0, 0, 0), (2, 2, 1), (3, 3, 1)] := rfl
  obtain ⟨M, hM, -⟩ := csr_of_data (c := 2) h1 (by simp)
  obtain ⟨N0, hN0, -⟩ := csr_of_data (c := 1) h2 (by simp)
  obtain ⟨N1, hN1, -⟩ := csr_of_data (c := 1) h3 (by simp)
  refine ⟨_, _, _, _, _, M, N0, N1, rfl, rfl, rfl, rfl, rfl, rfl, ?_, rfl, rfl, rfl, hM, hN0, hN1⟩
  simp only [List.pairwise_cons, List.mem_singleton, forall_eq, List.not_mem_nil, false_imp_iff, implies_true,
    List.Pairwise.nil, and_true]
  rfl

end Verif
