import Verif.Proofs.Schwinger
import Verif.Props.Spin
/-! Terms produced by `Schwinger()`. -/

namespace Verif
open Spec

/-- the fermion state with spin `s` on the site of the operator -/
def fstate (o : SpinOperator) (s : Fin 2) : StateID :=
  ⟨o.siteId.site, if s = 0 then 1 else 0, 0, o.siteId.tuple⟩

theorem fstate_init {zoom : ℤ} {o : SpinOperator} (h : o.BuiltUnder zoom) (s : Fin 2) :
    StateID.init zoom o.siteId.site (spinIndex s) = .ok (fstate o s) := by
  unfold SpinOperator.BuiltUnder at h
  unfold StateID.init
  rw [h]
  rcases fin2_cases s with rfl | rfl <;> rfl

/-- the two-operator term of one matrix entry -/
noncomputable def entryTerm (o : SpinOperator) (p : Fin 2 × Fin 2) : ParticleTerm :=
  ⟨[⟨.creation, fstate o p.1⟩, ⟨.annihilation, fstate o p.2⟩], spinHalf o.otype p.1 p.2, .general⟩

open Classical in
/-- the nonzero matrix entries, row by row -/
noncomputable def entries (o : SpinOperator) : List (Fin 2 × Fin 2) :=
  [(0, 0), (0, 1), (1, 0), (1, 1)].filter (fun p => spinHalf o.otype p.1 p.2 ≠ 0)

theorem schwinger_eq {zoom : ℤ} {o : SpinOperator} (h : o.BuiltUnder zoom) :
    o.schwinger zoom = .ok ((entries o).map (entryTerm o)) := by
  have h0 : StateID.init zoom o.siteId.site 1 = .ok (fstate o 0) := fstate_init h 0
  have h1 : StateID.init zoom o.siteId.site 0 = .ok (fstate o 1) := fstate_init h 1
  have g00 := spinMatrix_get o.otype 0 0
  have g01 := spinMatrix_get o.otype 0 1
  have g10 := spinMatrix_get o.otype 1 0
  have g11 := spinMatrix_get o.otype 1 1
  simp only [Fin.coe_ofNat_eq_mod, Nat.zero_mod, Nat.one_mod] at g00 g01 g10 g11
  unfold SpinOperator.schwinger AoC.init
  rw [h0, h1]
  simp only [pyAssert, bind, Except.bind, pure, Except.pure, if_true,
    List.flatMap_cons, List.flatMap_nil, List.append_nil, g00, g01, g10, g11]
  unfold entries
  by_cases e00 : spinHalf o.otype 0 0 = 0 <;> by_cases e01 : spinHalf o.otype 0 1 = 0 <;>
    by_cases e10 : spinHalf o.otype 1 0 = 0 <;> by_cases e11 : spinHalf o.otype 1 1 = 0 <;>
    simp [e00, e01, e10, e11, entryTerm, List.filter]

/-- the Fock operator of a term -/
noncomputable def opOf (ft : IndexTable StateID) (t : ParticleTerm) : Module.End ℂ Fock :=
  t.coeff • termOperator (t.aocs.map (indexedAoC ft))

/-- the concatenation of terms -/
noncomputable def joinTerms (c : ℂ) (l : List ParticleTerm) : ParticleTerm :=
  ⟨l.flatMap ParticleTerm.aocs, c * (l.map ParticleTerm.coeff).prod, .general⟩

theorem foldlM_terms (zoom : ℤ) (l : List ParticleTerm) (t : ParticleTerm)
    (ht : t.classification = .general) :
    l.foldlM (fun res sub => pyMul zoom res (.term sub)) (PVal.term t) =
      .ok (.term ⟨t.aocs ++ l.flatMap ParticleTerm.aocs, t.coeff * (l.map ParticleTerm.coeff).prod,
        .general⟩) := by
  induction l generalizing t with
  | nil =>
    obtain ⟨a, c, cl⟩ := t
    simp only at ht
    subst ht
    simp [pure, Except.pure]
  | cons u l ih =>
    rw [List.foldlM_cons]
    change ((Except.ok (.term ⟨t.aocs ++ u.aocs, t.coeff * u.coeff, .general⟩) : Py PVal) >>= _) = _
    simp only [bind, Except.bind]
    rw [ih _ rfl]
    simp [mul_assoc]

theorem schwingerProduct_eq (zoom : ℤ) (c : ℂ) (l : List ParticleTerm) (hl : l ≠ []) :
    schwingerProduct zoom c l = .ok (.term (joinTerms c l)) := by
  cases l with
  | nil => exact absurd rfl hl
  | cons u l =>
    unfold schwingerProduct
    rw [List.foldlM_cons]
    change ((Except.ok (.term ⟨u.aocs, c * u.coeff, .general⟩) : Py PVal) >>= _) = _
    simp only [bind, Except.bind]
    rw [foldlM_terms _ _ _ rfl]
    simp [joinTerms, mul_assoc]

theorem interaction_schwinger_eq {zoom : ℤ} {t : SpinInteraction}
    (h : ∀ o ∈ t.operators, o.BuiltUnder zoom) (hne : t.operators ≠ []) :
    t.schwinger zoom = .ok (((cartProduct (t.operators.map (fun o => (entries o).map (entryTerm o)))).map
      (joinTerms t.coeff)).map PVal.term) := by
  unfold SpinInteraction.schwinger
  have h1 : t.operators.mapM (SpinOperator.schwinger zoom) =
      .ok (t.operators.map (fun o => (entries o).map (entryTerm o))) := by
    rw [mapM_ok_iff]
    apply forall₂_of_getElem (by simp)
    intro i hi
    rw [List.getElem_map]
    exact schwinger_eq (h _ (List.getElem_mem hi))
  rw [h1]
  simp only [bind, Except.bind]
  rw [mapM_ok_iff]
  apply forall₂_of_getElem (by simp)
  intro i hi
  simp only [List.getElem_map]
  apply schwingerProduct_eq
  intro hnil
  have hm := List.getElem_mem hi
  rw [hnil, mem_cartProduct] at hm
  have := forall₂_length hm
  simp only [List.length_nil, List.length_map] at this
  exact hne (List.length_eq_zero_iff.mp this.symm)

theorem cartProduct_sum {α R : Type _} [Semiring R] (ls : List (List α)) (f : α → R) :
    ((cartProduct ls).map (fun l => (l.map f).prod)).sum = (ls.map (fun l => (l.map f).sum)).prod := by
  induction ls with
  | nil => simp [cartProduct]
  | cons l ls ih =>
    simp only [cartProduct, List.map_cons, List.prod_cons, ← ih]
    induction l with
    | nil => simp
    | cons x l ih2 =>
      simp only [List.flatMap_cons, List.map_append, List.sum_append, ih2, List.map_cons,
        List.sum_cons, add_mul, List.map_map]
      congr 1
      rw [← List.sum_map_mul_left]
      rfl

theorem opOf_join (ft : IndexTable StateID) (c : ℂ) (l : List ParticleTerm) :
    opOf ft (joinTerms c l) = c • (l.map (opOf ft)).prod := by
  unfold opOf joinTerms
  simp only
  rw [mul_smul]
  congr 1
  induction l with
  | nil => simp [termOperator, fockProduct]
  | cons t l ih =>
    simp only [List.flatMap_cons, List.map_append, List.map_cons, List.prod_cons,
      termOperator_append] at ih ⊢
    rw [← ih, smul_mul_assoc, mul_smul_comm, smul_smul]

section
variable {zoom : ℤ} {objs : List SiteID} {table : IndexTable SiteID} {fobjs : List StateID} {f0 : ℤ}
  {ft : IndexTable StateID} {pos : ℕ → Fin 2 → ℕ}

theorem goodPos (hT : IndexTable.init objs 0 = .ok table) (hF : IndexTable.init fobjs f0 = .ok ft)
    (hS : FermionSites zoom objs ft pos) : GoodPos table.len pos := by
  have hC := C01_indextable_bijection objs 0 table hT
  have hlen := hC.2.2.1
  constructor
  · intro i hi j hj s t he
    rw [hlen] at hi hj
    obtain ⟨b1, f1, -⟩ := hS i objs[i] (List.getElem?_eq_getElem hi)
    obtain ⟨b2, f2, -⟩ := hS j objs[j] (List.getElem?_eq_getElem hj)
    obtain ⟨-, id1, e1, q1⟩ := f1 s
    obtain ⟨-, id2, e2, q2⟩ := f2 t
    rw [he] at q1
    have hk := queryIndex_inj hF q1 q2
    obtain ⟨-, s1, -, t1⟩ := stateInit_ok e1
    obtain ⟨-, s2, -, t2⟩ := stateInit_ok e2
    rw [b1] at t1
    rw [b2] at t2
    unfold StateID.hashKey at hk
    simp only [Prod.mk.injEq] at hk
    have ht : objs[i].tuple = objs[j].tuple := by
      rw [Except.ok.inj t1, Except.ok.inj t2]
      exact hk.1
    have hq1 := (hC.2.2.2.2.1 i _ (List.getElem?_eq_getElem hi)).1
    have hq2 := (hC.2.2.2.2.1 j _ (List.getElem?_eq_getElem hj)).1
    rw [siteIndex_congr table _ _ ht, hq2] at hq1
    have := Except.ok.inj hq1
    refine ⟨by omega, ?_⟩
    have hsp : spinIndex s = spinIndex t := by rw [← s1, ← s2, hk.2.1]
    revert hsp
    unfold spinIndex
    rcases fin2_cases s with rfl | rfl <;> rcases fin2_cases t with rfl | rfl <;> simp
  · intro i hi
    rw [hlen] at hi
    exact (hS i objs[i] (List.getElem?_eq_getElem hi)).2.2

/-- index of the fermion states of an operator -/
theorem fstate_index (hT : IndexTable.init objs 0 = .ok table)
    (hS : FermionSites zoom objs ft pos) {o : SpinOperator} {i : ℤ}
    (hi : table.queryIndex o.siteId = .ok i) (s : Fin 2) :
    ft.queryIndex (fstate o s) = .ok (pos i.toNat s) ∧ pos i.toNat s < 64 := by
  have hC := C01_indextable_bijection objs 0 table hT
  obtain ⟨o', ho', heq⟩ := hC.2.2.2.2.2.2 o.siteId i hi
  have hr := siteIndex_range hT hi
  rw [hC.2.2.1] at hr
  have hlt : i.toNat < objs.length := by omega
  have h2 := (hC.2.2.2.2.1 i.toNat _ (List.getElem?_eq_getElem hlt)).2
  have hii : (0 : ℤ) + (i.toNat : ℤ) = i := by omega
  rw [hii, ho'] at h2
  have h2 := Except.ok.inj h2
  rw [siteEq_iff] at heq
  obtain ⟨b1, f1, -⟩ := hS i.toNat _ (List.getElem?_eq_getElem hlt)
  obtain ⟨h64, id, e1, q1⟩ := f1 s
  refine ⟨?_, h64⟩
  rw [← q1]
  apply queryIndex_congr
  obtain ⟨-, s1, o1, t1⟩ := stateInit_ok e1
  rw [b1] at t1
  have ht := congrArg SiteID.tuple (Except.ok.inj t1)
  simp only at ht
  unfold StateID.hashKey fstate
  simp only [Prod.mk.injEq]
  refine ⟨?_, ?_, ?_⟩
  · rw [← ht, ← h2, heq]
  · unfold spinIndex at s1
    split <;> rename_i hs <;> simp [hs] at s1 <;> omega
  · omega

theorem entry_indexed (hT : IndexTable.init objs 0 = .ok table)
    (hS : FermionSites zoom objs ft pos) {o : SpinOperator} {i : ℤ}
    (hi : table.queryIndex o.siteId = .ok i) (p : Fin 2 × Fin 2) :
    (entryTerm o p).aocs.map (indexedAoC ft) = pairs pos [(i.toNat, p.1, p.2)] := by
  simp [entryTerm, pairs, indexedAoC, (fstate_index hT hS hi _).1, Except.toOption]

theorem entries_sum (hT : IndexTable.init objs 0 = .ok table)
    (hS : FermionSites zoom objs ft pos) {o : SpinOperator} {i : ℤ}
    (hi : table.queryIndex o.siteId = .ok i) :
    (((entries o).map (entryTerm o)).map (opOf ft)).sum =
      bilinear pos i.toNat (spinHalf o.otype) := by
  have hop : ∀ p, opOf ft (entryTerm o p) =
      spinHalf o.otype p.1 p.2 • (create (pos i.toNat p.1) * annihilate (pos i.toNat p.2)) := by
    intro p
    unfold opOf
    rw [entry_indexed hT hS hi]
    simp [entryTerm, pairs, termOperator, fockProduct, fockOp]
  have hfil : ∀ l : List (Fin 2 × Fin 2),
      (((l.filter (fun p => decide (spinHalf o.otype p.1 p.2 ≠ 0))).map (entryTerm o)).map
        (opOf ft)).sum = (l.map (fun p => opOf ft (entryTerm o p))).sum := by
    intro l
    induction l with
    | nil => rfl
    | cons p l ih =>
      simp only [List.filter_cons, List.map_cons, List.sum_cons]
      split
      · simp only [List.map_cons, List.sum_cons, ih]
      · rename_i h0
        simp only [decide_eq_true_eq, not_not] at h0
        rw [ih, hop p, h0, zero_smul, zero_add]
  unfold entries
  rw [hfil]
  simp only [hop]
  unfold bilinear
  simp [Fin.sum_univ_two, add_assoc]

/-- from the operator identity to the matrices returned by `matrix_repr` -/
theorem schwinger_matrices (hT : IndexTable.init objs 0 = .ok table)
    (hF : IndexTable.init fobjs f0 = .ok ft) (hS : FermionSites zoom objs ft pos)
    (bases : List ℕ) (hs : bases.Pairwise (· < ·)) (hB : ∀ k, k ∈ bases ↔ OnePerSite table.len pos k)
    (terms : List ParticleTerm)
    (hterm : ∀ t ∈ terms, t.classification = .general ∧ (∀ a ∈ t.aocs, ∃ i, ft.queryIndex a.state = .ok i) ∧
      ∃ l, l ≠ [] ∧ (∀ p ∈ l, p.1 < table.len) ∧ t.aocs.map (indexedAoC ft) = pairs pos l)
    (A : Matrix (Fin (2 ^ table.len)) (Fin (2 ^ table.len)) ℂ)
    (hA : Acts table.len pos (terms.map (opOf ft)).sum A) :
    ∃ Ms, terms.mapM (fun t => (t.matrixRepr ft bases).2) = .ok Ms ∧
      ∀ (r c : ℕ) (a b : Fin (2 ^ table.len)) (k k' : ℕ), bases[r]? = some k → bases[c]? = some k' →
        SpinsOf table.len pos k a → SpinsOf table.len pos k' b →
        (Ms.map (fun M => M.get r c)).sum = A a b := by
  have hg := goodPos hT hF hS
  have hC := C01_indextable_bijection objs 0 table hT
  have h64 : ∀ i < table.len, ∀ s, pos i s < 64 := by
    intro i hi s
    rw [hC.2.2.1] at hi
    exact ((hS i objs[i] (List.getElem?_eq_getElem hi)).2.1 s).1
  have hne : bases.Nodup := hs.imp (fun h => Nat.ne_of_lt h)
  have hex : ∀ t ∈ terms, ∃ M, (t.matrixRepr ft bases).2 = .ok M ∧
      ∀ r c k k', bases[r]? = some k → bases[c]? = some k' →
        M.get r c = matrixElement (opOf ft t) (occ k) (occ k') := by
    intro t ht
    obtain ⟨hgen, hq, l, hl, hln, hidx⟩ := hterm t ht
    have hvalid : ValidTerm (pairs pos l) := by
      refine ⟨?_, ?_⟩
      · cases l with
        | nil => exact absurd rfl hl
        | cons p l => simp [pairs]
      · intro q hq
        unfold pairs at hq
        obtain ⟨p, hp, hq⟩ := List.mem_flatMap.mp hq
        have := h64 p.1 (hln p hp)
        simp only [List.mem_cons, List.not_mem_nil, or_false] at hq
        rcases hq with rfl | rfl
        · have := this p.2.1; omega
        · have := this p.2.2; omega
    have hclosed : ∀ k ∈ bases, ∀ k' s, image (pairs pos l) k = some (k', s) → k' ∈ bases := by
      intro k hk k' s him
      rw [hB] at hk ⊢
      obtain ⟨b, hb, -⟩ := config_of_onePerSite hk
      have hket := termOperator_ket (pairs pos l) k
      rw [him, hb] at hket
      simp only at hket
      have hval : ∀ S, (bsign s • ket (occ k')) S = if occ k' = S then bsign s else 0 := by
        intro S
        simp [ket, Finsupp.single_apply]
      rcases pairs_config hg l hln b with h0 | ⟨a, ha⟩
      · exfalso
        rw [h0] at hket
        have := congrArg (fun v : Fock => v (occ k')) hket
        simp only [hval] at this
        simp at this
        exact bsign_ne_zero s this.symm
      · rw [ha] at hket
        have := congrArg (fun v : Fock => v (occ k')) hket
        simp only [hval, if_true] at this
        have hoc : config table.len pos a = occ k' := by
          by_contra hcon
          rw [ket, Finsupp.single_apply, if_neg hcon] at this
          exact bsign_ne_zero s this.symm
        exact onePerSite_of_config hg hoc.symm
    obtain ⟨M, hM⟩ := general_csr_of (left := none) t.coeff hvalid (by simpa using hs)
      (fun h => by simpa using h) (by simpa using hclosed)
    refine ⟨M, ?_, ?_⟩
    · rw [matrixRepr_none, bind_ok_iff]
      exact ⟨pairs pos l, indexed_ok_iff.mpr ⟨hq, hidx.symm⟩, hgen ▸ hM⟩
    · intro r c k k' hr hc
      obtain ⟨hr', rfl⟩ := List.getElem?_eq_some_iff.mp hr
      obtain ⟨hc', rfl⟩ := List.getElem?_eq_some_iff.mp hc
      have := general_csr_get hM (by simpa using hne) r c (by simpa using hr') hc'
      rw [this]
      simp [matrixElement, opOf, hidx]
  obtain ⟨Ms, hMs⟩ : ∃ Ms, terms.mapM (fun t => (t.matrixRepr ft bases).2) = .ok Ms := by
    cases h : terms.mapM (fun t => (t.matrixRepr ft bases).2) with
    | ok Ms => exact ⟨Ms, rfl⟩
    | error e =>
      rw [mapM_error_iff] at h
      obtain ⟨pre, t, post, hl, -, he⟩ := h
      obtain ⟨M, hM, -⟩ := hex t (by rw [hl]; simp)
      rw [hM] at he
      cases he
  refine ⟨Ms, hMs, ?_⟩
  intro r c a b k k' hr hc ha hb
  have hk : OnePerSite table.len pos k := (hB k).mp (List.mem_of_getElem? hr)
  have hk' : OnePerSite table.len pos k' := (hB k').mp (List.mem_of_getElem? hc)
  have hsum : (Ms.map (fun M => M.get r c)).sum =
      (terms.map (fun t => matrixElement (opOf ft t) (occ k) (occ k'))).sum := by
    congr 1
    have h2 := mapM_ok_iff.mp hMs
    apply List.ext_getElem (by simp [forall₂_length h2])
    intro j h3 h4
    simp only [List.length_map] at h3 h4
    simp only [List.getElem_map]
    obtain ⟨M, hM, hget⟩ := hex terms[j] (List.getElem_mem h4)
    have := forall₂_getElem h2 j h4
    rw [hM] at this
    rw [← Except.ok.inj this]
    exact hget r c k k' hr hc
  have hlin : ∀ l : List ParticleTerm, (l.map (fun t => matrixElement (opOf ft t) (occ k) (occ k'))).sum =
      matrixElement (l.map (opOf ft)).sum (occ k) (occ k') := by
    intro l
    induction l with
    | nil => simp [matrixElement]
    | cons t l ih => simp only [List.map_cons, List.sum_cons, ih]; simp [matrixElement]
  rw [hsum, hlin, config_of_spins hg hk a.2 ha, config_of_spins hg hk' b.2 hb]
  unfold matrixElement
  rw [hA b, Finsupp.finsetSum_apply, Finset.sum_eq_single a]
  · simp [ket]
  · intro d _ hd
    have : config table.len pos d ≠ config table.len pos a := by
      intro he
      exact hd (Fin.ext (config_injective hg d.2 a.2 he))
    simp [ket, this]
  · simp

end

end Verif
