import Verif.Model.DemoGreen
import Verif.Proofs.RingGreen
import Verif.Props.GreenFunction
import Verif.Props.Particle
/-!
# Lemmas for C86: the operators, excited states and k-points of the demo scripts
-/

namespace Verif.Demo

open Latt LDB Spec Matrix Lanczos GF

/-! ### Lists of operators -/

section

variable {zoom : ℤ} {coordOf : ℝ → Coord} {n S : ℕ} {st : ℕ → ℕ → StateID}

/-- The annihilation and the creation operator of a state. -/
def opA (st : ℕ → ℕ → StateID) (p : ℕ × ℕ) : AoC := ⟨.annihilation, st p.1 p.2⟩
/-- see `opA` -/
def opC (st : ℕ → ℕ → StateID) (p : ℕ × ℕ) : AoC := ⟨.creation, st p.1 p.2⟩

/-- The pairs (species, site), in the order of the loops. -/
def sites (Ts : List ℕ) (n : ℕ) : List (ℕ × ℕ) := Ts.flatMap fun s => (List.range n).map fun i => (s, i)

theorem mem_sites {Ts : List ℕ} {p : ℕ × ℕ} : p ∈ sites Ts n ↔ p.1 ∈ Ts ∧ p.2 < n := by
  unfold sites
  rw [List.mem_flatMap]
  constructor
  · rintro ⟨s, hs, hp⟩
    obtain ⟨i, hi, rfl⟩ := List.mem_map.1 hp
    exact ⟨hs, List.mem_range.1 hi⟩
  · rintro ⟨h1, h2⟩
    exact ⟨p.1, h1, List.mem_map.2 ⟨p.2, List.mem_range.2 h2, rfl⟩⟩

theorem nodup_sites {Ts : List ℕ} (hTs : Ts.Nodup) : (sites Ts n).Nodup := by
  unfold sites
  rw [List.nodup_flatMap]
  refine ⟨fun s _ => List.nodup_range.map fun a b h => (Prod.mk.inj h).2, ?_⟩
  refine hTs.imp fun {a b} hab => ?_
  intro p h1 h2
  obtain ⟨i, -, rfl⟩ := List.mem_map.1 h1
  obtain ⟨j, -, h⟩ := List.mem_map.1 h2
  exact hab (Prod.mk.inj h).1.symm

theorem sites_sum {M : Type _} [AddCommMonoid M] {Ts : List ℕ} (hTs : Ts.Nodup) (f : ℕ × ℕ → M) :
    ((sites Ts n).map f).sum = ∑ p ∈ Ts.toFinset ×ˢ Finset.range n, f p := by
  rw [← List.sum_toFinset _ (nodup_sites hTs)]
  refine Finset.sum_congr ?_ fun _ _ => rfl
  ext p
  rw [List.mem_toFinset, mem_sites, Finset.mem_product, List.mem_toFinset, Finset.mem_range]

theorem opA_ne_opC (p q : ℕ × ℕ) : opA st p ≠ opC st q := by
  intro h
  have := congrArg AoC.otype h
  simp [opA, opC] at this

theorem opA_inj (h : States zoom coordOf n st) {p q : ℕ × ℕ} (hp : p.2 < n) (hq : q.2 < n) :
    opA st p = opA st q ↔ p = q := by
  constructor
  · intro he
    have h1 : st p.1 p.2 = st q.1 q.2 := congrArg AoC.state he
    exact Prod.ext_iff.2 (h.inj _ _ _ _ hp hq (by rw [h1]))
  · rintro rfl; rfl

theorem opC_inj (h : States zoom coordOf n st) {p q : ℕ × ℕ} (hp : p.2 < n) (hq : q.2 < n) :
    opC st p = opC st q ↔ p = q := by
  constructor
  · intro he
    have h1 : st p.1 p.2 = st q.1 q.2 := congrArg AoC.state he
    exact Prod.ext_iff.2 (h.inj _ _ _ _ hp hq (by rw [h1]))
  · rintro rfl; rfl

theorem init_opA (h : States zoom coordOf n st) {p : ℕ × ℕ} (hp : p.2 < n) :
    AoC.init zoom 0 [coordOf (p.2 : ℝ)] (p.1 : ℤ) = .ok (opA st p) := by
  unfold AoC.init
  simp [pyAssert, h.init_eq p.1 p.2 hp, bind, Except.bind, pure, Except.pure, opA]

theorem init_opC (h : States zoom coordOf n st) {p : ℕ × ℕ} (hp : p.2 < n) :
    AoC.init zoom 1 [coordOf (p.2 : ℝ)] (p.1 : ℤ) = .ok (opC st p) := by
  unfold AoC.init
  simp [pyAssert, h.init_eq p.1 p.2 hp, bind, Except.bind, pure, Except.pure, opC]

theorem dagger_opA (h : States zoom coordOf n st) {p : ℕ × ℕ} (hp : p.2 < n) :
    daggerOf zoom (opA st p) = opC st p := by
  obtain ⟨d, h1, h2, h3, -⟩ := C07_dagger_involution zoom _ _ _ _ _ (init_opA h hp)
  unfold daggerOf
  rw [h1]
  rcases d with ⟨⟨⟩, s⟩
  · exact absurd rfl h2
  · simp only [opC, AoC.mk.injEq, true_and]; exact h3

theorem dagger_opC (h : States zoom coordOf n st) {p : ℕ × ℕ} (hp : p.2 < n) :
    daggerOf zoom (opC st p) = opA st p := by
  obtain ⟨d, h1, h2, h3, -⟩ := C07_dagger_involution zoom _ _ _ _ _ (init_opC h hp)
  unfold daggerOf
  rw [h1]
  rcases d with ⟨⟨⟩, s⟩
  · simp only [opA, AoC.mk.injEq, true_and]; exact h3
  · exact absurd rfl h2

theorem operators_ok (h : States zoom coordOf n st) (Ts : List ℕ) {L : Lat n 1 1}
    (hL : ∀ i, L.points i = ![((i : ℕ) : ℝ)]) :
    operators zoom coordOf L (Ts.map fun s : ℕ => (s : ℤ)) =
      .ok ((sites Ts n).map fun p => (opA st p, opC st p)) := by
  unfold operators
  have h1 : ((sites Ts n).map fun p => (opA st p, opC st p)) =
      ((Ts.map fun s : ℕ => (s : ℤ)).flatMap fun s => (List.finRange n).map fun i => (s, i)).map
        (fun p : ℤ × Fin n => (opA st (p.1.toNat, p.2), opC st (p.1.toNat, (p.2 : ℕ)))) := by
    unfold sites
    rw [List.flatMap_map, List.map_flatMap, List.map_flatMap]
    congr 1
    funext s
    rw [List.map_map, List.map_map, ← List.map_coe_finRange_eq_range, List.map_map]
    rfl
  rw [h1]
  refine mapM_ok_map fun p hp => ?_
  obtain ⟨s, hs, hp⟩ := List.mem_flatMap.1 hp
  obtain ⟨s', -, rfl⟩ := List.mem_map.1 hs
  obtain ⟨i, -, rfl⟩ := List.mem_map.1 hp
  dsimp only
  have e1 := init_opA h (p := (s', (i : ℕ))) i.2
  have e2 := init_opC h (p := (s', (i : ℕ))) i.2
  rw [hL, siteOf_pt, Int.toNat_natCast]
  dsimp only at e1 e2
  rw [e1, e2]
  rfl

/-! ### Excited states -/

theorem mapsTo_iff_image {term : List (ℤ × Otype)} {R L : List ℕ} :
    MapsTo (termOperator term) R L ↔ ∀ k ∈ R, ∀ k' s, image term k = some (k', s) → k' ∈ L := by
  constructor
  · intro h k hk k' s him
    have h1 := termOperator_ket term k
    rw [him] at h1
    dsimp only at h1
    obtain ⟨l, hl, he⟩ := h k hk (occ k') (by
      rw [h1, Finsupp.smul_apply, ket, Finsupp.single_eq_same]
      cases s <;> simp [bsign])
    rwa [occ_injective he]
  · intro h k hk U hU
    rw [termOperator_ket] at hU
    cases him : image term k with
    | none => rw [him] at hU; simp at hU
    | some p =>
      obtain ⟨k', s⟩ := p
      rw [him] at hU
      dsimp only at hU
      rw [Finsupp.smul_apply, ket, Finsupp.single_apply] at hU
      refine ⟨k', h k hk k' s him, ?_⟩
      by_contra hne
      rw [if_neg (fun h => hne h.symm)] at hU
      simp at hU

/-- The operator of an AoC on a state with a given index. -/
noncomputable def fockOf (o : Otype) (q : ℕ) : Module.End ℂ Fock :=
  match o with
  | .creation => create q
  | .annihilation => annihilate q

theorem termOperator_single (o : Otype) (q : ℕ) : termOperator [((q : ℤ), o)] = fockOf o q := by
  cases o <;> simp [termOperator, fockProduct, fockOp, fockOf]

theorem excite_ok {table : IndexTable StateID} {B : List ℕ} {left : Option (List ℕ)}
    (hL : (left.getD B).Pairwise (· < ·)) (hne : B ≠ [] → left.getD B ≠ []) {a : AoC} {q : ℕ} (hq : q < 64)
    (ht : table.queryIndex a.state = .ok (q : ℤ)) (hm : MapsTo (fockOf a.otype q) B (left.getD B)) :
    ∃ M, a.matrixRepr table B left = .ok M ∧
      (Matrix.of fun (r : Fin (left.getD B).length) (c : Fin B.length) => M.get r c) =
        opMat2 (left.getD B) B (fockOf a.otype q) := by
  rw [← termOperator_single, mapsTo_iff_image] at hm
  obtain ⟨M, hM⟩ := general_csr_of (c := 1) (term := [((q : ℤ), a.otype)]) (right := B) (left := left)
    ⟨by simp, by simp; omega⟩ hL hne hm
  refine ⟨M, ?_, ?_⟩
  · unfold AoC.matrixRepr
    rw [ht]
    exact hM
  · ext r c
    rw [Matrix.of_apply, general_csr_get hM (hL.imp fun h => Nat.ne_of_lt h) r c r.2 c.2, termOperator_single,
      one_mul]
    rfl

/-- The dict of excited states. -/
theorem excitedStates_ok {table : IndexTable StateID} {B : List ℕ} {left : Option (List ℕ)}
    (hL : (left.getD B).Pairwise (· < ·)) (hne : B ≠ [] → left.getD B ≠ []) (GS : Vec B.length)
    {ops : List AoC} {idx : AoC → ℕ} (hq : ∀ a ∈ ops, idx a < 64)
    (ht : ∀ a ∈ ops, table.queryIndex a.state = .ok (idx a : ℤ))
    (hm : ∀ a ∈ ops, MapsTo (fockOf a.otype (idx a)) B (left.getD B)) :
    excitedStates table B left GS ops = .ok fun a =>
      if a ∈ ops then some (opMat2 (left.getD B) B (fockOf a.otype (idx a)) *ᵥ GS) else none := by
  unfold excitedStates
  have hmap : ops.mapM (fun a => (do
      let M ← a.matrixRepr table B left
      return (a, some ((Matrix.of fun (r : Fin (left.getD B).length) (c : Fin B.length) => M.get r c) *ᵥ GS)) :
        Py (AoC × Option (Vec (left.getD B).length)))) =
      .ok (ops.map fun a => (a, some (opMat2 (left.getD B) B (fockOf a.otype (idx a)) *ᵥ GS))) := by
    refine mapM_ok_map fun a ha => ?_
    obtain ⟨M, h1, h2⟩ := excite_ok hL hne (hq a ha) (ht a ha) (hm a ha)
    rw [h1]
    simp only [bind, Except.bind, pure, Except.pure]
    rw [h2]
  rw [hmap]
  simp only [bind, Except.bind, pure, Except.pure]
  congr 1
  funext a
  split
  · rename_i ha
    refine applyWrites_of_forall _ _ _ _ ⟨_, List.mem_map.2 ⟨a, ha, rfl⟩, rfl⟩ ?_
    intro w hw he
    obtain ⟨b, -, rfl⟩ := List.mem_map.1 hw
    dsimp only at he
    rw [he]
  · rename_i ha
    refine applyWrites_of_not_mem _ _ _ fun w hw he => ha ?_
    obtain ⟨b, hb, rfl⟩ := List.mem_map.1 hw
    dsimp only at he
    rwa [← he]

/-! ### k-points and phases -/

theorem kpoints_ok {prec : ℕ} (hprec : 1 ≤ prec) (siteNum : ℕ) :
    ∃ cell, latticeGenerator prec "chain" 1 1 1 = .ok cell ∧
      kpoints siteNum cell = .ok ((List.range (siteNum + 1)).map fun i : ℕ => [2 * Real.pi * i / siteNum]) := by
  obtain ⟨L, e1, -, e3, e4, -⟩ := chain_lat (prec := prec) hprec (n := 1) le_rfl (n1 := 1) (n2 := 1) le_rfl le_rfl
  rw [Nat.cast_one] at e1
  refine ⟨_, e1, ?_⟩
  have hb : L.bs 0 0 = 2 * Real.pi := by
    unfold init at e4
    rw [if_neg (by norm_num), if_neg (by norm_num), dif_pos rfl] at e4
    have := (initSame_ok e4).2.2.2.2.1 0 0
    rw [if_pos rfl, Finset.univ_unique, Finset.sum_singleton] at this
    rw [e3] at this
    simpa using this
  unfold kpoints
  rw [dif_pos rfl]
  congr 1
  refine List.map_congr_left fun i _ => ?_
  simp only [List.finRange_succ, List.finRange_zero, List.map_cons, List.map_nil]
  congr 1
  have : L.bs ⟨0, Nat.one_pos⟩ 0 = 2 * Real.pi := hb
  rw [this]
  ring

theorem siteVal_op {st : ℕ → ℕ → StateID} (hc : ∀ i < n, coordOf (i : ℝ) = .flt (.fin i))
    (h : States zoom coordOf n st) {a : AoC} {p : ℕ × ℕ} (hp : p.2 < n) (ha : a.state = st p.1 p.2) :
    siteVal a = [(p.2 : ℝ)] := by
  have h1 := h.init_eq p.1 p.2 hp
  have h2 : (st p.1 p.2).site = [coordOf (p.2 : ℝ)] := by
    exact (stateInit_ok h1).1
  unfold siteVal
  rw [ha, h2, hc _ hp]
  simp [coordVal]

theorem phaseFactor_op {st : ℕ → ℕ → StateID} (hc : ∀ i < n, coordOf (i : ℝ) = .flt (.fin i))
    (h : States zoom coordOf n st) {p q : ℕ × ℕ} (hp : p.2 < n) (hq : q.2 < n) (k : ℝ) :
    phaseFactor [k] (opA st p) (opC st q) =
      (Complex.exp (Complex.I * (k : ℂ)))⁻¹ ^ p.2 * Complex.exp (Complex.I * (k : ℂ)) ^ q.2 := by
  unfold phaseFactor
  rw [siteVal_op hc h hp (a := opA st p) rfl, siteVal_op hc h hq (a := opC st q) rfl]
  rw [← Complex.exp_neg, ← Complex.exp_nat_mul, ← Complex.exp_nat_mul, ← Complex.exp_add]
  congr 1
  simp only [List.zipWith_cons_cons, List.zipWith_nil_right, List.sum_cons, List.sum_nil, add_zero]
  push_cast
  ring

theorem firstOccurrences_nodup {α : Type} [DecidableEq α] {l : List α} (h : l.Nodup) :
    firstOccurrences l = l := by
  unfold firstOccurrences
  rw [List.Nodup.dedup (List.nodup_reverse.2 h), List.reverse_reverse]

theorem keys_nodup (h : States zoom coordOf n st) {l : List (ℕ × ℕ)} (hl : l.Nodup) (hlt : ∀ p ∈ l, p.2 < n) :
    ((l.map (opA st)).flatMap fun A => (l.map (opC st)).map fun B => (A, B)).Nodup := by
  have hA : (l.map (opA st)).Nodup := hl.map_on fun p hp q hq he => (opA_inj h (hlt p hp) (hlt q hq)).1 he
  have hC : (l.map (opC st)).Nodup := hl.map_on fun p hp q hq he => (opC_inj h (hlt p hp) (hlt q hq)).1 he
  rw [List.nodup_flatMap]
  refine ⟨fun s _ => hC.map fun a b h => (Prod.mk.inj h).2, ?_⟩
  refine hA.imp fun {a b} hab => ?_
  intro p h1 h2
  obtain ⟨i, -, rfl⟩ := List.mem_map.1 h1
  obtain ⟨j, -, he⟩ := List.mem_map.1 h2
  exact hab (Prod.mk.inj he).1.symm

/-- The sum over the keys of a dict of Green functions that are known up to an error. -/
theorem keys_sum {m : ℕ} (hc : ∀ i < n, coordOf (i : ℝ) = .flt (.fin i))
    (h : States zoom coordOf n st) {Ts : List ℕ} (hTs : Ts.Nodup) {D : AoC × AoC → Option (Fin m → ℂ)}
    {wi : Fin m} {G : ℕ × ℕ → ℕ × ℕ → ℂ} {δ : ℝ}
    (hD : ∀ p ∈ sites Ts n, ∀ q ∈ sites Ts n, ∃ row, D (opA st p, opC st q) = some row ∧ ‖row wi - G p q‖ ≤ δ)
    (k : ℝ) :
    ‖((((sites Ts n).map (opA st)).flatMap fun A => ((sites Ts n).map (opC st)).map fun B => (A, B)).map
        fun p => (D p).getD 0 wi * phaseFactor [k] p.1 p.2).sum -
      ∑ p ∈ Ts.toFinset ×ˢ Finset.range n, ∑ q ∈ Ts.toFinset ×ˢ Finset.range n,
        (Complex.exp (Complex.I * (k : ℂ)))⁻¹ ^ p.2 * Complex.exp (Complex.I * (k : ℂ)) ^ q.2 * G p q‖ ≤
      (Ts.length * n : ℕ) ^ 2 * δ := by
  have hmem : ∀ {p}, p ∈ Ts.toFinset ×ˢ Finset.range n ↔ p ∈ sites Ts n := by
    intro p
    rw [mem_sites, Finset.mem_product, List.mem_toFinset, Finset.mem_range]
  have hs : ((((sites Ts n).map (opA st)).flatMap fun A => ((sites Ts n).map (opC st)).map fun B => (A, B)).map
        fun p => (D p).getD 0 wi * phaseFactor [k] p.1 p.2).sum =
      ∑ p ∈ Ts.toFinset ×ˢ Finset.range n, ∑ q ∈ Ts.toFinset ×ˢ Finset.range n,
        (D (opA st p, opC st q)).getD 0 wi * phaseFactor [k] (opA st p) (opC st q) := by
    rw [sum_map_flatMap, List.map_map, sites_sum hTs]
    refine Finset.sum_congr rfl fun p _ => ?_
    dsimp only [Function.comp]
    rw [List.map_map, List.map_map, sites_sum hTs]
    rfl
  have hcard : (Ts.toFinset ×ˢ Finset.range n).card = Ts.length * n := by
    rw [Finset.card_product, List.toFinset_card_of_nodup hTs, Finset.card_range]
  rw [hs, ← Finset.sum_sub_distrib]
  refine (norm_sum_le _ _).trans ?_
  have hin : ∀ p ∈ Ts.toFinset ×ˢ Finset.range n,
      ‖∑ q ∈ Ts.toFinset ×ˢ Finset.range n, (D (opA st p, opC st q)).getD 0 wi * phaseFactor [k] (opA st p) (opC st q) -
        ∑ q ∈ Ts.toFinset ×ˢ Finset.range n,
        (Complex.exp (Complex.I * (k : ℂ)))⁻¹ ^ p.2 * Complex.exp (Complex.I * (k : ℂ)) ^ q.2 * G p q‖ ≤
        (Ts.length * n : ℕ) * δ := by
    intro p hp
    rw [← Finset.sum_sub_distrib]
    refine (norm_sum_le _ _).trans ?_
    rw [← hcard, ← nsmul_eq_mul]
    refine Finset.sum_le_card_nsmul _ _ _ fun q hq => ?_
    obtain ⟨row, h1, h2⟩ := hD p (hmem.1 hp) q (hmem.1 hq)
    have hp' := (mem_sites.1 (hmem.1 hp)).2
    have hq' := (mem_sites.1 (hmem.1 hq)).2
    rw [h1, Option.getD_some, phaseFactor_op hc h hp' hq', mul_comm (row wi), ← mul_sub, norm_mul, norm_mul,
      norm_pow, norm_pow, norm_inv, mul_comm Complex.I, Complex.norm_exp_ofReal_mul_I, inv_one, one_pow, one_pow, one_mul,
      one_mul]
    exact h2
  refine (Finset.sum_le_card_nsmul _ _ _ hin).trans (le_of_eq ?_)
  rw [hcard, nsmul_eq_mul]
  ring

end

end Verif.Demo
