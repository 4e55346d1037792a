import Verif.Proofs.SchwingerTerm
import Verif.Props.HilbertSpace
import Verif.Proofs.Specifier
/-!
# C34: Schwinger-fermion representation

`table` is the site table, `ft` the table of single-particle states; `FermionSites` says that the
spin-up and spin-down states of site `i` have the indices `pos i 0` and `pos i 1` in `ft`, next to
each other and below 64.  `bases` is the ascending list of the kets with exactly one fermion per site.
-/

namespace Verif
open Spec

section
variable {zoom : ℤ} {objs : List SiteID} {table : IndexTable SiteID} {fobjs : List StateID} {f0 : ℤ}
  {ft : IndexTable StateID} {pos : ℕ → Fin 2 → ℕ}

/-- **C34** (operators).  `s.Schwinger()` returns terms whose `matrix_repr` on the one-fermion-per-site
kets never raises, and the sum of these matrices has, between the kets with spins `a` and `b`, the
entry `[a, b]` of `s.matrix_repr(table)`. -/
theorem C34_schwinger_operator (hT : IndexTable.init objs 0 = .ok table)
    (hF : IndexTable.init fobjs f0 = .ok ft) (hS : FermionSites zoom objs ft pos)
    (bases : List ℕ) (hs : bases.Pairwise (· < ·)) (hB : ∀ k, k ∈ bases ↔ OnePerSite table.len pos k)
    (s : SpinOperator) (hb : s.BuiltUnder zoom) (hk : Known table [s]) :
    ∃ terms Ms M, s.schwinger zoom = .ok terms ∧
      terms.mapM (fun t => (t.matrixRepr ft bases).2) = .ok Ms ∧ s.matrixRepr table = .ok M ∧
      ∀ (r c : ℕ) (a b : Fin (2 ^ table.len)) (k k' : ℕ), bases[r]? = some k → bases[c]? = some k' →
        SpinsOf table.len pos k a → SpinsOf table.len pos k' b →
        (Ms.map (fun M => M.get r c)).sum = M.get a b := by
  obtain ⟨i, hi⟩ := hk s (by simp)
  have hr := siteIndex_range hT hi
  obtain ⟨hop, M, hM, -⟩ := opMat_eq hT hi
  have hg := goodPos hT hF hS
  obtain ⟨Ms, hMs, hval⟩ := schwinger_matrices hT hF hS bases hs hB ((entries s).map (entryTerm s))
    (by
      intro t ht
      obtain ⟨p, hp, rfl⟩ := List.mem_map.mp ht
      refine ⟨rfl, ?_, [(i.toNat, p.1, p.2)], by simp, ?_, entry_indexed hT hS hi p⟩
      · intro a ha
        simp only [entryTerm, List.mem_cons, List.not_mem_nil, or_false] at ha
        rcases ha with rfl | rfl
        · exact ⟨_, (fstate_index hT hS hi _).1⟩
        · exact ⟨_, (fstate_index hT hS hi _).1⟩
      · intro p hp
        simp only [List.mem_cons, List.not_mem_nil, or_false] at hp
        subst hp
        simp only
        omega)
    (siteOp table.len i.toNat (spinHalf s.otype))
    (by
      rw [entries_sum hT hS hi]
      exact bilinear_acts hg (by omega) _)
  refine ⟨_, Ms, M, schwinger_eq hb, hMs, hM, ?_⟩
  intro r c a b k k' h1 h2 h3 h4
  rw [hval r c a b k k' h1 h2 h3 h4, ← hop]
  unfold SpinOperator.opMat
  rw [hM]
  rfl

/-- **C34** (interactions).  The same for `t.Schwinger()` of an interaction with at least one
operator. -/
theorem C34_schwinger_interaction (hT : IndexTable.init objs 0 = .ok table)
    (hF : IndexTable.init fobjs f0 = .ok ft) (hS : FermionSites zoom objs ft pos)
    (bases : List ℕ) (hs : bases.Pairwise (· < ·)) (hB : ∀ k, k ∈ bases ↔ OnePerSite table.len pos k)
    (t : SpinInteraction) (hne : t.operators ≠ []) (hb : ∀ s ∈ t.operators, s.BuiltUnder zoom)
    (hk : Known table t.operators) :
    ∃ (terms : List ParticleTerm) (Ms : List Csr) (M : SMat), t.schwinger zoom = .ok (terms.map PVal.term) ∧
      terms.mapM (fun u => (u.matrixRepr ft bases).2) = .ok Ms ∧ (t.matrixRepr table).2 = .ok M ∧
      ∀ (r c : ℕ) (a b : Fin (2 ^ table.len)) (k k' : ℕ), bases[r]? = some k → bases[c]? = some k' →
        SpinsOf table.len pos k a → SpinsOf table.len pos k' b →
        (Ms.map (fun M => M.get r c)).sum = M.get a b := by
  have hg := goodPos hT hF hS
  obtain ⟨M, hM, -, hMval⟩ := interaction_matrixRepr hT t hk
  obtain ⟨Ms, hMs, hval⟩ := schwinger_matrices hT hF hS bases hs hB
    ((cartProduct (t.operators.map (fun o => (entries o).map (entryTerm o)))).map
      (joinTerms t.coeff))
    (by
      intro u hu
      obtain ⟨l, hl, rfl⟩ := List.mem_map.mp hu
      rw [mem_cartProduct] at hl
      have main : ∀ (ops : List SpinOperator) (l : List ParticleTerm), Known table ops →
          List.Forall₂ (fun x l => x ∈ l) l (ops.map (fun o => (entries o).map (entryTerm o))) →
          (∀ a ∈ l.flatMap ParticleTerm.aocs, ∃ i, ft.queryIndex a.state = .ok i) ∧
          ∃ q : List (ℕ × Fin 2 × Fin 2), q.length = ops.length ∧ (∀ p ∈ q, p.1 < table.len) ∧
            (l.flatMap ParticleTerm.aocs).map (indexedAoC ft) = pairs pos q := by
        intro ops
        induction ops with
        | nil =>
          intro l _ hl
          cases hl
          exact ⟨by simp, [], rfl, by simp, rfl⟩
        | cons o ops ih =>
          intro l hk hl
          rw [List.map_cons] at hl
          cases hl with
          | @cons x _ l' _ hx hl' =>
          obtain ⟨h1, q, h2, h3, h4⟩ := ih l' (fun s hs => hk s (by simp [hs])) hl'
          obtain ⟨i, hi⟩ := hk o (by simp)
          have hr := siteIndex_range hT hi
          obtain ⟨p, -, rfl⟩ := List.mem_map.mp hx
          refine ⟨?_, (i.toNat, p.1, p.2) :: q, by simp [h2], ?_, ?_⟩
          · intro a ha
            rw [List.flatMap_cons] at ha
            rcases List.mem_append.mp ha with ha | ha
            · simp only [entryTerm, List.mem_cons, List.not_mem_nil, or_false] at ha
              rcases ha with rfl | rfl
              · exact ⟨_, (fstate_index hT hS hi _).1⟩
              · exact ⟨_, (fstate_index hT hS hi _).1⟩
            · exact h1 a ha
          · intro p' hp'
            rcases List.mem_cons.mp hp' with rfl | hp'
            · simp only; omega
            · exact h3 p' hp'
          · rw [List.flatMap_cons, List.map_append, h4, entry_indexed hT hS hi p]
            simp [pairs]
      obtain ⟨h1, q, h2, h3, h4⟩ := main t.operators l hk hl
      refine ⟨rfl, h1, q, ?_, h3, h4⟩
      rintro rfl
      exact hne (List.length_eq_zero_iff.mp h2.symm))
    (t.coeff • (t.operators.map (fun s => s.opMat table)).prod)
    (by
      rw [List.map_map]
      have h1 : (opOf ft ∘ joinTerms t.coeff) = fun l => t.coeff • (l.map (opOf ft)).prod := by
        funext l
        exact opOf_join ft t.coeff l
      have h2 : ∀ L : List (List ParticleTerm),
          (L.map (fun l => t.coeff • (l.map (opOf ft)).prod)).sum =
            t.coeff • (L.map (fun l => (l.map (opOf ft)).prod)).sum := by
        intro L
        induction L with
        | nil => simp
        | cons x L ih => simp only [List.map_cons, List.sum_cons, ih, smul_add]
      rw [h1, h2, cartProduct_sum, List.map_map]
      apply Acts.smul
      apply Acts.prod
      intro s hs'
      obtain ⟨i, hi⟩ := hk s hs'
      have hr := siteIndex_range hT hi
      rw [Function.comp_apply, entries_sum hT hS hi, (opMat_eq hT hi).1]
      exact bilinear_acts hg (by omega) _)
  refine ⟨_, Ms, M, interaction_schwinger_eq hb hne, hMs, hM, ?_⟩
  intro r c a b k k' h1 h2 h3 h4
  rw [hval r c a b k k' h1 h2 h3 h4, ← hMval]
  rfl

end

/-- The kets with one fermion per site are those of
`base_vectors(((up_0, down_0), 1), ((up_1, down_1), 1), ...)`: the hypotheses on `bases` above are met
by the library's own constructor. -/
theorem C34_bases (n : ℕ) (pos : ℕ → Fin 2 → ℕ) (hpos : ∀ i < n, pos i 0 ≠ pos i 1)
    (kets : List ℕ)
    (h : baseVectors ((List.range n).map (fun i =>
      .tuple [.tuple [.int (pos i 0), .int (pos i 1)], .int 1])) .array true = .ok kets) :
    kets.Pairwise (· < ·) ∧ ∀ k, k ∈ kets ↔ OnePerSite n pos k := by
  have hsub : ((List.range n).map (fun i =>
      HVal.tuple [.tuple [.int (pos i 0), .int (pos i 1)], .int 1])).mapM preprocess =
      .ok ((List.range n).map (fun i => ([pos i 0, pos i 1], HNum.int 1))) := by
    rw [mapM_ok_iff]
    apply forall₂_of_getElem (by simp)
    intro i hi
    simp only [List.getElem_map]
    rw [preprocess_iff]
    refine Denotes.pairStates _ (.tuple [.int (pos _ 0), .int (pos _ 1)]) [pos _ 0, pos _ 1] (.int 1)
      (by simp) (Or.inl rfl) ?_ (Or.inl rfl)
    simp [NumLe]
  have hrep : NoRepeats ((List.range n).map (fun i => ([pos i 0, pos i 1], HNum.int 1))) := by
    intro s hs
    obtain ⟨i, hi, rfl⟩ := List.mem_map.mp hs
    simpa using hpos i (List.mem_range.mp hi)
  refine ⟨(C15_base_vectors_ascending _ _ kets h _ hsub hrep).1, ?_⟩
  intro k
  rw [C14_base_vectors_exact _ _ _ kets h _ hsub hrep k]
  unfold AllowedKet OnePerSite
  constructor
  · rintro ⟨h1, h2⟩
    refine ⟨?_, ?_⟩
    · intro x hx
      obtain ⟨s, hs, hx⟩ := h1 x hx
      obtain ⟨i, hi, rfl⟩ := List.mem_map.mp hs
      exact ⟨i, List.mem_range.mp hi, by simpa using hx⟩
    · intro i hi
      have := h2 _ (List.mem_map.mpr ⟨i, List.mem_range.mpr hi, rfl⟩) 1 rfl (by norm_num)
      simp only [List.filter_cons, List.filter_nil] at this
      revert this
      cases k.testBit (pos i 0) <;> cases k.testBit (pos i 1) <;> simp
  · rintro ⟨h1, h2⟩
    refine ⟨?_, ?_⟩
    · intro x hx
      obtain ⟨i, hi, hx⟩ := h1 x hx
      exact ⟨_, List.mem_map.mpr ⟨i, List.mem_range.mpr hi, rfl⟩, by simpa using hx⟩
    · intro s hs M hM hM0
      obtain ⟨i, hi, rfl⟩ := List.mem_map.mp hs
      have := h2 i (List.mem_range.mp hi)
      simp only [HNum.int.injEq] at hM
      subst hM
      simp only [List.filter_cons, List.filter_nil]
      revert this
      cases k.testBit (pos i 0) <;> cases k.testBit (pos i 1) <;> simp

/-- Non-vacuity of C34: two sites, the four states ordered `(site, spin)` as the library sorts them
(spin down, 0, first), and the four kets with one fermion per site. -/
example : ∃ (table : IndexTable SiteID) (ft : IndexTable StateID),
    IndexTable.init [⟨[.int 0], [0]⟩, ⟨[.int 1], [10000]⟩] 0 = .ok table ∧
    IndexTable.init [⟨[.int 0], 0, 0, [0]⟩, ⟨[.int 0], 1, 0, [0]⟩,
      ⟨[.int 1], 0, 0, [10000]⟩, ⟨[.int 1], 1, 0, [10000]⟩] 0 = .ok ft ∧
    FermionSites 10000 [⟨[.int 0], [0]⟩, ⟨[.int 1], [10000]⟩] ft
      (fun i s => if s = 0 then 2 * i + 1 else 2 * i) ∧
    Known table [⟨.p, ⟨[.int 1], [10000]⟩⟩, ⟨.m, ⟨[.int 0], [0]⟩⟩] ∧
    baseVectors ((List.range 2).map (fun i => .tuple [.tuple
      [.int ((fun i s => if s = 0 then 2 * i + 1 else 2 * i : ℕ → Fin 2 → ℕ) i 0),
       .int ((fun i s => if s = 0 then 2 * i + 1 else 2 * i : ℕ → Fin 2 → ℕ) i 1)], .int 1]))
      .array true = .ok [5, 6, 9, 10] := by
  refine ⟨_, _, rfl, rfl, ?_, ?_, rfl⟩
  · intro i o hio
    have hi : i < 2 := by
      have := (List.getElem?_eq_some_iff.mp hio).1
      simpa using this
    obtain rfl | rfl : i = 0 ∨ i = 1 := by omega
    all_goals simp only [List.getElem?_cons_zero, List.getElem?_cons_succ,
      Option.some.injEq] at hio
    all_goals
      subst hio
      refine ⟨rfl, ?_, by simp⟩
      intro s
      rcases fin2_cases s with rfl | rfl <;> exact ⟨by simp, _, rfl, rfl⟩
  · intro s hs
    simp only [List.mem_cons, List.not_mem_nil, or_false] at hs
    rcases hs with rfl | rfl
    · exact ⟨1, rfl⟩
    · exact ⟨0, rfl⟩

end Verif
