import Verif.Props.MatrixTerm
import Verif.Props.Specifier
/-!
# C68-C70: sub-bases, particle-number sectors, the one-particle sector
-/

namespace Verif
open Spec

/-! ### C68 -/

/-- matrix elements of a compatible term, as operators -/
theorem compat_elements {objs : List StateID} {s : ℤ} {table : IndexTable StateID}
    (hT : IndexTable.init objs s = .ok table) {t : ParticleTerm} (hct : t.checkCompatibility = true)
    {R L : List ℕ} (hL : L.Pairwise (· < ·))
    (hdt : t.classification = .number ∨ t.classification = .coulomb → L = R)
    {M : Csr} (hM : (t.matrixRepr table R (some L)).2 = .ok M) :
    ∃ term, t.indexed table = .ok term ∧ ValidTerm term ∧
      (∀ (r : ℕ) (hr : r < L.length) (j : ℕ) (hj : j < R.length),
        M.get r j = t.coeff * matrixElement (termOperator term) (occ L[r]) (occ R[j])) ∧
      ∀ k ∈ R, ∀ k' s, image term k = some (k', s) → k' ∈ L := by
  have hLn : L.Nodup := hL.imp (fun h => Nat.ne_of_lt h)
  rw [C23_compatible_terms_partial objs s table hT t R (some L) hct
    (fun h => ⟨hdt h, hdt h ▸ hL⟩), matrixRepr_none, bind_ok_iff] at hM
  obtain ⟨term, hterm, hM⟩ := hM
  obtain ⟨h1, rfl⟩ := indexed_ok_iff.mp hterm
  obtain ⟨hv, -, hi⟩ := general_csr_image hM
  exact ⟨_, indexed_ok_iff.mpr ⟨h1, rfl⟩, hv,
    fun r hr j hj => general_csr_get hM hLn r j hr hj, hi⟩

/-- **C68** (submatrix).  Represent one term on the bases `R -> L` and on other bases `R' -> L'`.  Elements
between the same two kets are equal; and, for a ket of `R`, every element of the second matrix that
leads outside `L` is zero: the matrix on a large basis is block diagonal with respect to any
sub-basis on which the term can be represented at all. -/
theorem C68_submatrix (objs : List StateID) (s : ℤ) (table : IndexTable StateID)
    (hT : IndexTable.init objs s = .ok table) (t : ParticleTerm) (hct : t.checkCompatibility = true)
    (R L R' L' : List ℕ) (hL : L.Pairwise (· < ·)) (hL' : L'.Pairwise (· < ·))
    (hdt : t.classification = .number ∨ t.classification = .coulomb → L = R ∧ L' = R')
    (M M' : Csr) (hM : (t.matrixRepr table R (some L)).2 = .ok M)
    (hM' : (t.matrixRepr table R' (some L')).2 = .ok M')
    (j : ℕ) (hj : j < R.length) (j' : ℕ) (hj' : j' < R'.length) (hk : R[j] = R'[j'])
    (r' : ℕ) (hr' : r' < L'.length) :
    (∀ (r : ℕ) (hr : r < L.length), L[r] = L'[r'] → M.get r j = M'.get r' j') ∧
    (L'[r'] ∉ L → M'.get r' j' = 0) := by
  obtain ⟨term, hterm, hv, hget, himg⟩ := compat_elements hT hct hL (fun h => (hdt h).1) hM
  obtain ⟨term', hterm', -, hget', -⟩ := compat_elements hT hct hL' (fun h => (hdt h).2) hM'
  rw [hterm] at hterm'; cases hterm'
  constructor
  · intro r hr he
    rw [hget r hr j hj, hget' r' hr' j' hj', he, hk]
  · intro hnot
    rw [hget' r' hr' j' hj', ← hk, matrixElement, termOperator_ket]
    cases hi : image term R[j] with
    | none => simp
    | some p =>
      obtain ⟨k', sg⟩ := p
      have hmem := himg R[j] (List.getElem_mem hj) k' sg hi
      simp only [Finsupp.smul_apply, ket]
      rw [Finsupp.single_eq_of_ne]
      · simp
      · intro heq
        have := occ_injective heq
        subst this
        exact hnot hmem

/-- the sum of the matrices of several terms on one basis -/
noncomputable def sumMatrix (n : ℕ) (Ms : List Csr) : Matrix (Fin n) (Fin n) ℂ :=
  (Ms.map (fun M => M.toMatrix n n)).sum

/-- A vector on the basis `B`, as a vector on the basis `B'`: the amplitude of a ket is unchanged, kets
outside `B` get amplitude 0. -/
noncomputable def extendVec (B B' : List ℕ) (v : Fin B.length → ℂ) : Fin B'.length → ℂ :=
  fun r' => ∑ r : Fin B.length, if B[r] = B'[r'] then v r else 0


theorem mulVec_extend {B B' : List ℕ} (hB : B.Nodup) (hB' : B'.Nodup) (hsub : ∀ k ∈ B, k ∈ B')
    (M : Matrix (Fin B.length) (Fin B.length) ℂ) (M' : Matrix (Fin B'.length) (Fin B'.length) ℂ)
    (h1 : ∀ j j' r r', B[j] = B'[j'] → B[r] = B'[r'] → M r j = M' r' j')
    (h2 : ∀ (j : Fin B.length) (j' r' : Fin B'.length), B[j] = B'[j'] → B'[r'] ∉ B → M' r' j' = 0)
    (v : Fin B.length → ℂ) : M'.mulVec (extendVec B B' v) = extendVec B B' (M.mulVec v) := by
  funext r'
  simp only [Matrix.mulVec, dotProduct, extendVec, Finset.mul_sum]
  rw [Finset.sum_comm]
  have key : ∀ j : Fin B.length, (∑ j' : Fin B'.length, M' r' j' * if B[j] = B'[j'] then v j else 0) =
      ∑ r : Fin B.length, if B[r] = B'[r'] then M r j * v j else 0 := by
    intro j
    obtain ⟨q, hq, hqe⟩ := List.getElem_of_mem (hsub _ (List.getElem_mem j.2))
    have hqe' : B[j] = B'[(⟨q, hq⟩ : Fin B'.length)] := hqe.symm
    rw [Finset.sum_eq_single (⟨q, hq⟩ : Fin B'.length)]
    · rw [if_pos hqe']
      by_cases hin : B'[r'] ∈ B
      · obtain ⟨p, hp, hpe⟩ := List.getElem_of_mem hin
        have hpe' : B[(⟨p, hp⟩ : Fin B.length)] = B'[r'] := hpe
        rw [Finset.sum_eq_single (⟨p, hp⟩ : Fin B.length)]
        · rw [if_pos hpe', h1 j ⟨q, hq⟩ ⟨p, hp⟩ r' hqe' hpe']
        · intro r _ hne
          rw [if_neg]
          intro he
          apply hne
          apply Fin.ext
          exact (hB.getElem_inj_iff (hi := r.2) (hj := hp)).1 (he.trans hpe.symm)
        · intro h; exact absurd (Finset.mem_univ _) h
      · rw [h2 j ⟨q, hq⟩ r' hqe' hin, zero_mul, Finset.sum_eq_zero]
        intro r _
        rw [if_neg]
        intro he
        exact hin (he ▸ List.getElem_mem r.2)
    · intro j' _ hne
      rw [if_neg, mul_zero]
      intro he
      apply hne
      apply Fin.ext
      exact (hB'.getElem_inj_iff (hi := j'.2) (hj := hq)).1 (he.symm.trans hqe.symm)
    · intro h; exact absurd (Finset.mem_univ _) h
  rw [Finset.sum_congr rfl (fun j _ => key j), Finset.sum_comm]
  refine Finset.sum_congr rfl fun r _ => ?_
  split
  · rfl
  · simp

/-- **C68** (eigenvectors).  Let a Hamiltonian be any list of terms, each represented on a basis `B` (a
sector) and on a larger basis `B'`.  An eigenvector of the sector Hamiltonian, extended by zero, is an
eigenvector of the large Hamiltonian with the same eigenvalue. -/
theorem C68_sector_eigenvectors (objs : List StateID) (s : ℤ) (table : IndexTable StateID)
    (hT : IndexTable.init objs s = .ok table) (B B' : List ℕ) (hB : B.Pairwise (· < ·))
    (hB' : B'.Pairwise (· < ·)) (hsub : ∀ k ∈ B, k ∈ B') (ts : List ParticleTerm) (Ms Ms' : List Csr)
    (hct : ∀ t ∈ ts, t.checkCompatibility = true)
    (hM : List.Forall₂ (fun t M => (ParticleTerm.matrixRepr t table B).2 = .ok M) ts Ms)
    (hM' : List.Forall₂ (fun t M => (ParticleTerm.matrixRepr t table B').2 = .ok M) ts Ms')
    (v : Fin B.length → ℂ) (lam : ℂ) (hv : (sumMatrix B.length Ms).mulVec v = lam • v) :
    (sumMatrix B'.length Ms').mulVec (extendVec B B' v) = lam • extendVec B B' v := by
  have hBn : B.Nodup := hB.imp (fun h => Nat.ne_of_lt h)
  have hBn' : B'.Nodup := hB'.imp (fun h => Nat.ne_of_lt h)
  have hmain : (∀ j j' r r', B[j] = B'[j'] → B[r] = B'[r'] →
        sumMatrix B.length Ms r j = sumMatrix B'.length Ms' r' j') ∧
      ∀ (j : Fin B.length) (j' r' : Fin B'.length), B[j] = B'[j'] → B'[r'] ∉ B →
        sumMatrix B'.length Ms' r' j' = 0 := by
    clear hv
    induction ts generalizing Ms Ms' with
    | nil => cases hM; cases hM'; simp [sumMatrix]
    | cons t ts ih =>
      cases hM with
      | cons ht hts =>
        cases hM' with
        | cons ht' hts' =>
          rename_i M Ms M' Ms'
          obtain ⟨e1, e2⟩ := ih Ms Ms' (fun u hu => hct u (List.mem_cons_of_mem _ hu)) hts hts'
          have sub := fun j hj j' hj' hk r' hr' => C68_submatrix objs s table hT t (hct t List.mem_cons_self) B B
            B' B' hB hB' (fun _ => ⟨rfl, rfl⟩) M M' ht ht' j hj j' hj' hk r' hr'
          constructor
          · intro j j' r r' hj hr
            have a := (sub j j.2 j' j'.2 hj r' r'.2).1 r r.2 hr
            have b := e1 j j' r r' hj hr
            simp only [sumMatrix, List.map_cons, List.sum_cons, Matrix.add_apply] at b ⊢
            rw [b]
            congr 1
          · intro j j' r' hj hr
            have a := (sub j j.2 j' j'.2 hj r' r'.2).2 hr
            have b := e2 j j' r' hj hr
            simp only [sumMatrix, List.map_cons, List.sum_cons, Matrix.add_apply] at b ⊢
            rw [b, add_zero]
            exact a
  rw [mulVec_extend hBn hBn' hsub _ _ hmain.1 hmain.2, hv]
  funext r'
  simp [extendVec, Finset.mul_sum, mul_ite]

/-- Non-vacuity of C68: hopping `c_0^dagger c_1` and its conjugate on the one-particle basis `[1, 2]` and on the
full basis `[0, 1, 2, 3]`; `(1, 1)` is an eigenvector with eigenvalue 1 in the sector. -/
example :
    ∃ (s0 s1 : StateID) (table : IndexTable StateID) (t td : ParticleTerm) (M Md M' Md' : Csr),
      StateID.init defaultZoom [.int 0] = .ok s0 ∧ StateID.init defaultZoom [.int 1] = .ok s1 ∧
      IndexTable.init [s0, s1] 0 = .ok table ∧
      t = ⟨[⟨.creation, s0⟩, ⟨.annihilation, s1⟩], 1, .hopping⟩ ∧
      td = ⟨[⟨.creation, s1⟩, ⟨.annihilation, s0⟩], 1, .hopping⟩ ∧
      (∀ u ∈ [t, td], u.checkCompatibility = true) ∧
      List.Forall₂ (fun t M => (ParticleTerm.matrixRepr t table [1, 2]).2 = .ok M) [t, td] [M, Md] ∧
      List.Forall₂ (fun t M => (ParticleTerm.matrixRepr t table [0, 1, 2, 3]).2 = .ok M) [t, td] [M', Md'] ∧
      (sumMatrix 2 [M, Md]).mulVec (fun _ => 1) = (1 : ℂ) • (fun _ => 1) := by
  have h1 : matrixData [(0, .creation), (1, .annihilation)] [1, 2] none .hopping =
      .ok [(0, 0, 0), (0, 1, 1)] := rfl
  have h2 : matrixData [(1, .creation), (0, .annihilation)] [1, 2] none .hopping =
      .ok [(1, 0, 1), (0, 0, 0)] := rfl
  have h3 : matrixData [(0, .creation), (1, .annihilation)] [0, 1, 2, 3] none .hopping =
      .ok [(0, 0, 0), (0, 0, 0), (1, 2, 1), (0, 0, 0)] := rfl
  have h4 : matrixData [(1, .creation), (0, .annihilation)] [0, 1, 2, 3] none .hopping =
      .ok [(0, 0, 0), (2, 1, 1), (0, 0, 0), (0, 0, 0)] := rfl
  obtain ⟨M, hM, hMget⟩ := csr_of_data (c := 1) h1 (by simp)
  obtain ⟨Md, hMd, hMdget⟩ := csr_of_data (c := 1) h2 (by simp)
  obtain ⟨M', hM', -⟩ := csr_of_data (c := 1) h3 (by simp)
  obtain ⟨Md', hMd', -⟩ := csr_of_data (c := 1) h4 (by simp)
  refine ⟨_, _, _, _, _, M, Md, M', Md', rfl, rfl, rfl, rfl, rfl, ?_, ?_, ?_, ?_⟩
  · simp only [List.mem_cons, List.not_mem_nil, or_false, forall_eq_or_imp, forall_eq]
    exact ⟨rfl, rfl⟩
  · exact .cons hM (.cons hMd .nil)
  · exact .cons hM' (.cons hMd' .nil)
  · funext r
    have hr : (sumMatrix 2 [M, Md]) = fun r j : Fin 2 => M.get r j + Md.get r j := by
      ext r j
      simp [sumMatrix, Csr.toMatrix]
    rw [hr]
    fin_cases r <;> simp [Matrix.mulVec, dotProduct, hMget, hMdget] <;> decide

/-! ### C69 -/

/-- The specifier `([states...], N)`. -/
def numberSpec (states : List ℕ) (N : ℤ) : HVal :=
  .tuple [.list (states.map (fun i : ℕ => .int i)), .int N]

theorem numberSpec_preprocess {states : List ℕ} {N : ℤ} {r : List ℕ × HNum} :
    preprocess (numberSpec states N) = .ok r ↔
      r = (states, .int N) ∧ states ≠ [] ∧ N ≤ states.length := by
  rw [preprocess_iff]
  have hinj : Function.Injective (fun n : ℕ => HVal.int (n : ℤ)) := by
    intro a b h; simpa using h
  constructor
  · intro h
    generalize hS : numberSpec states N = S at h
    cases h with
    | count n hn => simp [numberSpec] at hS
    | pairCount spec n p hn hp hspec =>
      subst hS
      rcases hspec with h | h <;> simp [numberSpec] at h
    | pairStates spec c sts p hne hc hp hspec =>
      subst hS
      rcases hspec with h | h
      · simp only [numberSpec, HVal.tuple.injEq, List.cons.injEq, and_true] at h
        obtain ⟨hc', hN⟩ := h
        have hp' : p = .int N := by
          cases p with
          | int m => simp [numVal] at hN; rw [hN]
          | float q => simp [numVal] at hN
        subst hc'
        have : states = sts := by
          rcases hc with h | h | h
          · simp at h
          · simp only [HVal.list.injEq] at h
            exact List.map_injective_iff.mpr hinj h
          · simp at h
        subst this hp'
        exact ⟨rfl, hne, hp⟩
      · simp [numberSpec] at h
  · rintro ⟨rfl, hne, hN⟩
    exact .pairStates _ _ states (.int N) hne (.inr (.inl rfl)) hN (.inl rfl)

/-- the kets of `([states], N)` specifiers -/
theorem sector_kets {ss : List (List ℕ)} {Ns : List ℤ} (hnd : ∀ s ∈ ss, s.Nodup)
    (hne : ∀ s ∈ ss, s ≠ []) (hdis : ss.Pairwise (fun s t => ∀ x ∈ s, x ∉ t))
    (h64 : ∀ s ∈ ss, ∀ x ∈ s, x < 64)
    (hN : List.Forall₂ (fun (s : List ℕ) (N : ℤ) => N ≤ s.length) ss Ns) :
    ∃ kets, baseVectors (List.zipWith numberSpec ss Ns) = .ok kets ∧ kets.Pairwise (· < ·) ∧
      ∀ k, k ∈ kets ↔ AllowedKet (List.zipWith (fun s N => (s, HNum.int N)) ss Ns) k := by
  have hfst : ∀ (ss : List (List ℕ)) (Ns : List ℤ), ss.length = Ns.length →
      (List.zipWith (fun s N => (s, HNum.int N)) ss Ns).map Prod.fst = ss := by
    intro ss
    induction ss with
    | nil => intro Ns _; simp
    | cons a ss ih =>
      intro Ns h
      cases Ns with
      | nil => simp at h
      | cons b Ns => simp [ih Ns (by simpa using h)]
  have hlen := forall₂_length hN
  set subs := List.zipWith (fun (s : List ℕ) (N : ℤ) => (s, HNum.int N)) ss Ns with hsubs
  have hmem : ∀ p ∈ subs, p.1 ∈ ss := by
    intro p hp
    rw [← hfst ss Ns hlen]
    exact List.mem_map_of_mem hp
  have hpre : (List.zipWith numberSpec ss Ns).mapM preprocess = .ok subs := by
    rw [mapM_ok_iff]
    apply forall₂_of_getElem (by simp [hsubs])
    intro i hi
    simp only [hsubs, List.getElem_zipWith]
    rw [numberSpec_preprocess]
    have hi1 : i < ss.length := by simp at hi; omega
    exact ⟨rfl, hne _ (List.getElem_mem hi1), forall₂_getElem hN i hi1⟩
  have hd : pairwiseDisjoint subs = true := by
    rw [pairwiseDisjoint_iff]
    have : (subs.map Prod.fst).Pairwise (fun s t => ∀ x ∈ s, x ∉ t) := by
      rw [hfst ss Ns hlen]; exact hdis
    rwa [List.pairwise_map] at this
  have hrep : NoRepeats subs := fun p hp => hnd _ (hmem p hp)
  have hg : ∃ gens, subs.mapM subspaceBases = .ok gens := by
    have : ∀ p ∈ subs, ∃ g, subspaceBases p = .ok g := by
      intro p hp
      rw [hsubs] at hp
      obtain ⟨i, hi, rfl⟩ := List.getElem_of_mem hp
      simp only [List.getElem_zipWith, subspaceBases]
      split <;> exact ⟨_, rfl⟩
    clear_value subs
    clear hrep hd hpre hmem hsubs
    induction subs with
    | nil => exact ⟨[], rfl⟩
    | cons p subs ih =>
      obtain ⟨g, hg⟩ := this p (by simp)
      obtain ⟨gs, hgs⟩ := ih (fun q hq => this q (by simp [hq]))
      exact ⟨g :: gs, by simp [List.mapM_cons, hg, hgs, bind, Except.bind, pure, Except.pure]⟩
  obtain ⟨gens, hg⟩ := hg
  have hmemk := mem_rawKets hg ((allStates_nodup_iff subs).mpr ⟨hrep, hd⟩)
  have hfin : ∃ kets, finishKets (rawKets gens) .array true = .ok kets := by
    cases hf : finishKets (rawKets gens) .array true with
    | ok kets => exact ⟨kets, rfl⟩
    | error e =>
      exfalso
      obtain ⟨-, -, k, hk, hk64⟩ := finishKets_error_iff.mp hf
      obtain ⟨h1, -⟩ := (hmemk k).mp hk
      obtain ⟨i, hi, hi'⟩ := Nat.exists_ge_and_testBit_of_ge_two_pow hk64
      obtain ⟨p, hp, hpi⟩ := h1 i hi'
      have := h64 _ (hmem p hp) i hpi
      omega
  obtain ⟨kets, hf⟩ := hfin
  have hok : baseVectors (List.zipWith numberSpec ss Ns) = .ok kets := by
    unfold baseVectors
    rw [hpre]
    simp only [pyAssert, bind, Except.bind, hd, hg, if_true]
    simpa [rawKets] using hf
  exact ⟨kets, hok, (C15_base_vectors_ascending _ .array kets hok subs hpre hrep).1,
    C14_base_vectors_exact _ .array true kets hok subs hpre hrep⟩

theorem full_inv {ss : List (List ℕ)} {full : List ℕ} (hnd : ∀ s ∈ ss, s.Nodup)
    (h : baseVectors (ss.map (fun s => numberSpec s (-1))) = .ok full) :
    (∀ s ∈ ss, s ≠ []) ∧ ss.Pairwise (fun s t => ∀ x ∈ s, x ∉ t) ∧ (∀ s ∈ ss, ∀ x ∈ s, x < 64) ∧
    full.Pairwise (· < ·) ∧ ∀ k, k ∈ full ↔ ∀ i, k.testBit i = true → ∃ s ∈ ss, i ∈ s := by
  obtain ⟨subs, gens, hs, hd, hg, hf⟩ := baseVectors_ok h
  have hs' := hs
  rw [mapM_ok_iff] at hs'
  have hsub : subs = ss.map (fun s => (s, HNum.int (-1))) ∧ ∀ s ∈ ss, s ≠ [] := by
    clear hd hg hf h hs
    induction ss generalizing subs with
    | nil => simp at hs'; simp [hs']
    | cons s ss ih =>
      rw [List.map_cons] at hs'
      cases hs' with
      | cons h1 h2 =>
        obtain ⟨rfl, hne, -⟩ := numberSpec_preprocess.mp h1
        obtain ⟨rfl, hall⟩ := ih (fun t ht => hnd t (by simp [ht])) _ h2
        refine ⟨rfl, ?_⟩
        intro t ht
        rcases List.mem_cons.mp ht with rfl | ht
        · exact hne
        · exact hall t ht
  obtain ⟨rfl, hne⟩ := hsub
  have hrep : NoRepeats (ss.map (fun s => (s, HNum.int (-1)))) := by
    intro p hp
    obtain ⟨s, hs, rfl⟩ := List.mem_map.mp hp
    exact hnd s hs
  have hmem : ∀ k, k ∈ full ↔ ∀ i, k.testBit i = true → ∃ s ∈ ss, i ∈ s := by
    intro k
    rw [C14_base_vectors_exact _ _ _ full h _ hs hrep]
    unfold AllowedKet
    simp only [List.mem_map, exists_exists_and_eq_and, forall_exists_index, and_imp,
      forall_apply_eq_imp_iff₂, HNum.int.injEq]
    constructor
    · exact fun h => h.1
    · refine fun h => ⟨h, ?_⟩
      intro s hs M hM h0
      omega
  refine ⟨hne, ?_, ?_, (C15_base_vectors_ascending _ _ full h _ hs hrep).1, hmem⟩
  · rw [pairwiseDisjoint_iff, List.pairwise_map] at hd
    exact hd
  · intro s hs' x hx
    have hk : 2 ^ x ∈ full := by
      rw [hmem]
      intro i hi
      rw [Nat.testBit_two_pow] at hi
      simp only [decide_eq_true_eq] at hi
      subst hi
      exact ⟨s, hs', hx⟩
    have := (finishKets_ok hf).2 rfl (2 ^ x) ((finishKets_perm hf).mem_iff.mp hk)
    exact (Nat.pow_lt_pow_iff_right (by norm_num)).mp this

/-- The number of particles a ket has in a list of states. -/
def particlesIn (s : List ℕ) (k : ℕ) : ℕ := (s.filter (fun i => k.testBit i)).length

/-- **C69.**  Let the full space over the state lists `ss` exist.  For every choice of particle numbers the
sector exists, its kets are in the same order as in the full basis, and they are exactly the kets of
the full basis with these particle numbers; and every ket of the full basis lies in exactly one
sector. -/
theorem C69_sectors_partition (ss : List (List ℕ)) (hnd : ∀ s ∈ ss, s.Nodup) (full : List ℕ)
    (hfull : baseVectors (ss.map (fun s => numberSpec s (-1))) = .ok full) :
    (∀ Ns : List ℕ, List.Forall₂ (fun (s : List ℕ) (N : ℕ) => N ≤ s.length) ss Ns →
      ∃ kets, baseVectors (List.zipWith (fun s N => numberSpec s (N : ℕ)) ss Ns) = .ok kets ∧
        kets.Sublist full ∧
        ∀ k, k ∈ kets ↔ k ∈ full ∧ List.Forall₂ (fun s N => particlesIn s k = N) ss Ns) ∧
    (∀ k ∈ full, ∃! Ns : List ℕ, List.Forall₂ (fun (s : List ℕ) (N : ℕ) => N ≤ s.length) ss Ns ∧
      ∃ kets, baseVectors (List.zipWith (fun s N => numberSpec s (N : ℕ)) ss Ns) = .ok kets ∧
        k ∈ kets) := by
  obtain ⟨hne, hdis, h64, hasc, hmem⟩ := full_inv hnd hfull
  have hfst : ∀ Ns : List ℕ, List.Forall₂ (fun (s : List ℕ) (N : ℕ) => N ≤ s.length) ss Ns →
      ∃ kets, baseVectors (List.zipWith (fun s N => numberSpec s (N : ℕ)) ss Ns) = .ok kets ∧
        kets.Pairwise (· < ·) ∧
        ∀ k, k ∈ kets ↔ k ∈ full ∧ List.Forall₂ (fun s N => particlesIn s k = N) ss Ns := by
    intro Ns hN
    have hN' : List.Forall₂ (fun (s : List ℕ) (N : ℤ) => N ≤ s.length) ss
        (Ns.map (fun N : ℕ => (N : ℤ))) := by
      rw [List.forall₂_map_right_iff]
      exact hN.imp (fun a b h => by exact_mod_cast h)
    obtain ⟨kets, hok, hs, hk⟩ := sector_kets hnd hne hdis h64 hN'
    rw [List.zipWith_map_right] at hok hk
    refine ⟨kets, hok, hs, fun k => ?_⟩
    rw [hk, hmem]
    unfold AllowedKet
    have hlen := forall₂_length hN
    constructor
    · rintro ⟨h1, h2⟩
      refine ⟨?_, ?_⟩
      · intro i hi
        obtain ⟨p, hp, hpi⟩ := h1 i hi
        obtain ⟨q, hq, rfl⟩ := List.getElem_of_mem hp
        simp only [List.getElem_zipWith] at hpi
        exact ⟨_, List.getElem_mem _, hpi⟩
      · apply forall₂_of_getElem hlen
        intro i hi
        have hz : i < (List.zipWith (fun (s : List ℕ) (N : ℕ) => (s, HNum.int (N : ℤ))) ss Ns).length := by
          simp; omega
        have := h2 _ (List.getElem_mem hz) (Ns[i]'(by omega) : ℕ) (by simp) (by omega)
        simp only [List.getElem_zipWith] at this
        exact_mod_cast this
    · rintro ⟨h1, h2⟩
      refine ⟨?_, ?_⟩
      · intro i hi
        obtain ⟨s, hs, hsi⟩ := h1 i hi
        obtain ⟨q, hq, rfl⟩ := List.getElem_of_mem hs
        have hz : q < (List.zipWith (fun (s : List ℕ) (N : ℕ) => (s, HNum.int (N : ℤ))) ss Ns).length := by
          simp; omega
        exact ⟨_, List.getElem_mem hz, by simpa using hsi⟩
      · intro p hp M hM h0
        obtain ⟨q, hq, rfl⟩ := List.getElem_of_mem hp
        simp only [List.getElem_zipWith, HNum.int.injEq] at hM ⊢
        have hq' : q < ss.length := by simp at hq; omega
        have := forall₂_getElem h2 q hq'
        rw [← hM, ← this]
        rfl
  constructor
  · intro Ns hN
    obtain ⟨kets, hok, hs, hk⟩ := hfst Ns hN
    refine ⟨kets, hok, ?_, hk⟩
    exact List.sublist_of_subperm_of_pairwise
      (List.subperm_of_subset (hs.imp (fun h => Nat.ne_of_lt h)) (fun k h => ((hk k).mp h).1)) hs hasc
  · intro k hk
    have hp : List.Forall₂ (fun s N => particlesIn s k = N) ss (ss.map (fun s => particlesIn s k)) := by
      rw [List.forall₂_map_right_iff, List.forall₂_same]
      exact fun _ _ => rfl
    have hle : List.Forall₂ (fun (s : List ℕ) (N : ℕ) => N ≤ s.length) ss
        (ss.map (fun s => particlesIn s k)) := by
      rw [List.forall₂_map_right_iff, List.forall₂_same]
      exact fun _ _ => List.length_filter_le _ _
    obtain ⟨kets, hok, -, hkk⟩ := hfst _ hle
    refine ⟨_, ⟨hle, kets, hok, (hkk k).mpr ⟨hk, hp⟩⟩, ?_⟩
    rintro Ns ⟨hN, kets', hok', hk'⟩
    obtain ⟨kets'', hok'', -, hkk''⟩ := hfst Ns hN
    rw [hok'] at hok''; cases hok''
    have := ((hkk'' k).mp hk').2
    apply List.ext_getElem
    · simp [forall₂_length hN]
    · intro i h1 h2
      have hi : i < ss.length := by simpa using h2
      rw [← forall₂_getElem this i hi]
      simp

/-- Non-vacuity of C69: two sites with spin; spin-up states 0, 2 and spin-down states 1, 3; one particle of each
kind. -/
example :
    (∃ full, baseVectors ([[0, 2], [1, 3]].map (fun s => numberSpec s (-1))) = .ok full ∧ full.length = 16) ∧
    List.Forall₂ (fun (s : List ℕ) (N : ℕ) => N ≤ s.length) [[0, 2], [1, 3]] [1, 1] ∧
    baseVectors (List.zipWith (fun s N => numberSpec s (N : ℕ)) [[0, 2], [1, 3]] [1, 1]) =
      .ok [3, 6, 9, 12] :=
  ⟨⟨_, rfl, rfl⟩, by decide, rfl⟩

/-! ### C70 -/

theorem mem_oneParticle {n k : ℕ} : k ∈ (List.range n).map (fun (i : ℕ) => 2 ^ i) ↔ ∃ i < n, k = 2 ^ i := by
  simp only [List.mem_map, List.mem_range]
  constructor
  · rintro ⟨i, hi, rfl⟩; exact ⟨i, hi, rfl⟩
  · rintro ⟨i, hi, rfl⟩; exact ⟨i, hi, rfl⟩

theorem oneParticle_ascending (n : ℕ) : ((List.range n).map (fun (i : ℕ) => 2 ^ i)).Pairwise (· < ·) := by
  rw [List.pairwise_map]
  exact (range_ascending n).imp (fun h => Nat.pow_lt_pow_right (by norm_num) h)

theorem occ_two_pow (i : ℕ) : occ (2 ^ i) = {i} := by
  ext j
  rw [mem_occ, Nat.testBit_two_pow, Finset.mem_singleton]
  simp [eq_comm]

/-- **C70** (basis).  `base_vectors((n, 1))` is `[1, 2, 4, ..., 2^(n-1)]`: the `i`-th base vector is the particle in
state `i`. -/
theorem C70_one_particle_basis (n : ℕ) (hn : 0 < n) (h64 : n ≤ 64) :
    baseVectors [.tuple [.int n, .int 1]] = .ok ((List.range n).map (fun (i : ℕ) => 2 ^ i)) := by
  have hpre : [HVal.tuple [.int n, .int 1]].mapM preprocess = .ok [(List.range n, HNum.int 1)] := by
    rw [mapM_ok_iff]
    exact .cons ((C17_standard_form _ _).mpr (.pairCount _ n (.int 1) hn
      (by simp only [NumLe]; exact_mod_cast hn) (.inl rfl))) .nil
  have hrep : NoRepeats [(List.range n, HNum.int 1)] := by
    intro s hs; simp only [List.mem_singleton] at hs; subst hs; exact List.nodup_range
  obtain ⟨kets, hk⟩ := C19_below_64_succeeds _ _ hpre hrep (by simp) (by simp) (by simp; omega) true
  rw [hk]
  congr 1
  have hasc := (C15_base_vectors_ascending _ _ kets hk _ hpre hrep).1
  refine eq_of_ascending hasc (oneParticle_ascending n) ?_
  intro k
  rw [C14_base_vectors_exact _ _ _ kets hk _ hpre hrep, mem_oneParticle]
  unfold AllowedKet
  simp only [List.mem_singleton, exists_eq_left, forall_eq, HNum.int.injEq, List.mem_range]
  have hcard : (∀ i, k.testBit i = true → i < n) →
      ((List.range n).filter (fun i => k.testBit i)).length = (occ k).card := by
    intro h
    rw [← List.toFinset_card_of_nodup (List.nodup_range.filter _)]
    congr 1
    ext i
    simp only [List.mem_toFinset, List.mem_filter, List.mem_range, mem_occ]
    exact ⟨fun h => h.2, fun h' => ⟨h i h', h'⟩⟩
  constructor
  · rintro ⟨h1, h2⟩
    have := h2 1 rfl (by norm_num)
    rw [hcard h1] at this
    obtain ⟨i, hi⟩ := Finset.card_eq_one.mp (by exact_mod_cast this)
    refine ⟨i, h1 i ?_, occ_injective (by rw [hi, occ_two_pow])⟩
    rw [← mem_occ, hi]; simp
  · rintro ⟨i, hi, rfl⟩
    have h1 : ∀ j, (2 ^ i).testBit j = true → j < n := by
      intro j hj
      rw [Nat.testBit_two_pow] at hj
      simp only [decide_eq_true_eq] at hj
      omega
    refine ⟨h1, ?_⟩
    rintro M rfl -
    rw [hcard h1, occ_two_pow]
    simp

/-- **C70** (matrices).  In the one-particle sector over `n <= 64` states the matrix of `c * c_a^dagger c_b` (hopping
when the states differ, number operator when they agree, or an unclassified term) exists, and is the
matrix unit `c * E_ij`, with `i`, `j` the indices of `a` and `b`. -/
theorem C70_one_particle_matrix (objs : List StateID) (s : ℤ) (table : IndexTable StateID)
    (hT : IndexTable.init objs s = .ok table) (n : ℕ) (h64 : n ≤ 64) (a b : StateID) (c : ℂ)
    (cl : Classification)
    (hct : ParticleTerm.checkCompatibility ⟨[⟨.creation, a⟩, ⟨.annihilation, b⟩], c, cl⟩ = true)
    (i j : ℕ) (hi : i < n) (hj : j < n) (ha : table.queryIndex a = .ok (i : ℤ))
    (hb : table.queryIndex b = .ok (j : ℤ)) :
    ∃ M, (ParticleTerm.matrixRepr ⟨[⟨.creation, a⟩, ⟨.annihilation, b⟩], c, cl⟩ table
        ((List.range n).map (fun (i : ℕ) => 2 ^ i))).2 = .ok M ∧
      M.nrow = n ∧ M.ncol = n ∧
      ∀ p < n, ∀ q < n, M.get p q = if p = i ∧ q = j then c else 0 := by
  set B := (List.range n).map (fun (i : ℕ) => 2 ^ i) with hB
  have hasc : B.Pairwise (· < ·) := oneParticle_ascending n
  have hlen : B.length = n := by simp [hB]
  have hterm : ParticleTerm.indexed ⟨[⟨.creation, a⟩, ⟨.annihilation, b⟩], c, .general⟩ table =
      .ok [((i : ℤ), .creation), ((j : ℤ), .annihilation)] := by
    unfold ParticleTerm.indexed
    rw [mapM_ok_iff]
    exact .cons (by simp [ha, bind, Except.bind, pure, Except.pure])
      (.cons (by simp [hb, bind, Except.bind, pure, Except.pure]) .nil)
  have helem : ∀ q < n, termOperator [((i : ℤ), .creation), ((j : ℤ), .annihilation)] (ket (occ (2 ^ q))) =
      if q = j then ket (occ (2 ^ i)) else 0 := by
    intro q _
    simp only [termOperator, fockProduct, List.map_cons, List.map_nil, List.prod_cons, List.prod_nil,
      mul_one, Int.toNat_natCast, fockOp, Module.End.mul_apply, occ_two_pow, annihilate_ket,
      Finset.mem_singleton]
    by_cases h : q = j
    · subst h
      simp [create_ket, jwSign, Finset.filter_singleton]
    · rw [if_neg (fun h' => h h'.symm), if_neg h, map_zero]
  have hv : ValidTerm [((i : ℤ), Otype.creation), ((j : ℤ), .annihilation)] := by
    refine ⟨by simp, ?_⟩
    intro p hp
    simp only [List.mem_cons, List.not_mem_nil, or_false] at hp
    rcases hp with rfl | rfl <;> simp <;> omega
  have himg : ∀ k ∈ (none.getD B : List ℕ), ∀ k' s,
      image [((i : ℤ), .creation), ((j : ℤ), .annihilation)] k = some (k', s) → k' ∈ (none.getD B : List ℕ) := by
    intro k hk k' s him
    obtain ⟨q, hq, rfl⟩ := mem_oneParticle.mp hk
    have := helem q hq
    rw [termOperator_ket, him] at this
    simp only at this
    refine mem_oneParticle.mpr ⟨i, hi, ?_⟩
    split at this
    · apply occ_injective
      by_contra hne
      have h2 := congrArg (fun v : Fock => v (occ k')) this
      simp only [Finsupp.smul_apply, ket, Finsupp.single_eq_same] at h2
      rw [Finsupp.single_eq_of_ne hne] at h2
      exact bsign_ne_zero s (by simpa using h2)
    · have h2 := congrArg (fun v : Fock => v (occ k')) this
      simp [ket, bsign_ne_zero] at h2
  obtain ⟨M, hM⟩ := general_csr_of (left := none) c hv hasc (fun h => h) himg
  obtain ⟨-, -, -, hr, hc, -⟩ := csr_ok_iff.mp hM
  refine ⟨M, ?_, by rw [hr]; exact hlen, by rw [hc]; exact hlen, ?_⟩
  · rw [C23_compatible_terms_partial objs s table hT _ _ none hct (fun _ => ⟨rfl, hasc⟩), matrixRepr_none,
      bind_ok_iff]
    exact ⟨_, hterm, hM⟩
  · intro p hp q hq
    have := general_csr_get hM (hasc.imp (fun h => Nat.ne_of_lt h)) p q (by simp [hp]) (by simp [hq])
    simp only [Option.getD_none, List.getElem_map, List.getElem_range] at this
    rw [this, matrixElement, helem q hq]
    by_cases h : q = j
    · subst h
      simp only [if_true, ket, and_true]
      by_cases hpi : p = i
      · subst hpi; simp
      · rw [Finsupp.single_eq_of_ne, if_neg hpi, mul_zero]
        rw [occ_two_pow, occ_two_pow]
        simpa using hpi
    · simp [h]

/-- Non-vacuity of C70: hopping from state 1 to state 0 among three states. -/
example :
    ∃ (s0 s1 s2 : StateID) (table : IndexTable StateID),
      StateID.init defaultZoom [.int 0] = .ok s0 ∧ StateID.init defaultZoom [.int 1] = .ok s1 ∧
      StateID.init defaultZoom [.int 2] = .ok s2 ∧ IndexTable.init [s0, s1, s2] 0 = .ok table ∧
      ParticleTerm.checkCompatibility ⟨[⟨.creation, s0⟩, ⟨.annihilation, s1⟩], Complex.I, .hopping⟩ = true ∧
      ParticleTerm.checkCompatibility ⟨[⟨.creation, s2⟩, ⟨.annihilation, s2⟩], Complex.I, .number⟩ = true ∧
      table.queryIndex s0 = .ok ((0 : ℕ) : ℤ) ∧ table.queryIndex s1 = .ok ((1 : ℕ) : ℤ) ∧
      table.queryIndex s2 = .ok ((2 : ℕ) : ℤ) := by
  exact ⟨_, _, _, _, rfl, rfl, rfl, rfl, rfl, rfl, rfl, rfl, rfl⟩

end Verif
