import Verif.Model.Demo
import Verif.Spec.TightBinding
import Verif.Props.ChainBonds
import Verif.Props.Sectors
import Verif.Props.Conservation
import Verif.Props.Factory
import Verif.Props.Precision
/-!
# Lemmas for C85: the Hamiltonian of the demo scripts
-/

namespace Verif.Demo

open Latt LDB Spec

theorem mapM_ok_map {α β ε : Type _} {f : α → Except ε β} {g : α → β} {l : List α}
    (h : ∀ x ∈ l, f x = .ok (g x)) : l.mapM f = .ok (l.map g) := by
  rw [mapM_ok_iff]
  induction l with
  | nil => exact .nil
  | cons x l ih =>
    exact .cons (h x (by simp)) (ih fun y hy => h y (by simp [hy]))

/-- The states of a chain, listed by species. -/
theorem flatMap_range (n S : ℕ) {α : Type _} (f : ℕ → ℕ → α) :
    ((List.range S).flatMap fun s => (List.range n).map (f s)) =
      (List.range (S * n)).map fun q => f (q / n) (q % n) := by
  induction S with
  | zero => simp
  | succ S ih =>
    rw [List.range_succ, List.flatMap_append, ih, Nat.succ_mul, List.range_add, List.map_append,
      List.map_map]
    congr 1
    rw [List.flatMap_cons, List.flatMap_nil, List.append_nil]
    refine List.map_congr_left fun i hi => ?_
    have hi := List.mem_range.1 hi
    have hn : 0 < n := by omega
    have e1 : (S * n + i) / n = S := by
      rw [mul_comm, Nat.mul_add_div hn, Nat.div_eq_of_lt hi, add_zero]
    have e2 : (S * n + i) % n = i := by
      rw [mul_comm, Nat.mul_add_mod, Nat.mod_eq_of_lt hi]
    simp only [Function.comp, e1, e2]

/-- `st s i` is the state of site `i` with spin `s`. -/
structure States (zoom : ℤ) (coordOf : ℝ → Coord) (n : ℕ) (st : ℕ → ℕ → StateID) : Prop where
  init_eq : ∀ (s : ℕ) (i : ℕ), i < n → StateID.init zoom [coordOf (i : ℝ)] (s : ℤ) = .ok (st s i)
  inj : ∀ s s' i i', i < n → i' < n → (st s i).hashKey = (st s' i').hashKey → s = s' ∧ i = i'

theorem states_of_exact (p : ℕ) (hp : p ≤ 22) {n : ℕ} (hn : 10 ^ p * n ≤ 2 ^ 53) {coordOf : ℝ → Coord}
    (hc : ∀ i < n, coordOf (i : ℝ) = .flt (.fin i)) :
    States (10 ^ p) coordOf n fun s i => ⟨[coordOf (i : ℝ)], s, 0, [10 ^ p * (i : ℤ)]⟩ := by
  constructor
  · intro s i hi
    have h := (C04_int_float_identified p hp (i : ℤ) (by
      rw [abs_of_nonneg (by positivity)]
      have h1 : 10 ^ p * i ≤ 10 ^ p * n := Nat.mul_le_mul_left _ hi.le
      exact_mod_cast h1.trans hn)).2
    rw [Int.cast_natCast] at h
    unfold StateID.init SiteID.init
    rw [hc i hi]
    simp [pyAssert, h, bind, Except.bind, pure, Except.pure]
  · intro s s' i i' _ _ h
    simp only [StateID.hashKey, Prod.mk.injEq, List.cons.injEq, and_true] at h
    refine ⟨h.2, ?_⟩
    have h1 := h.1
    have h0 : (10 : ℤ) ^ p ≠ 0 := by positivity
    exact_mod_cast mul_left_cancel₀ h0 h1

section

variable {zoom : ℤ} {coordOf : ℝ → Coord} {n S : ℕ} {st : ℕ → ℕ → StateID} {prec : ℕ}

theorem siteOf_pt (x : ℝ) : siteOf coordOf (![x] : Pt 1) = [coordOf x] := by
  simp [siteOf]

/-- The table maps site `i` with spin `s` to `s n + i`. -/
theorem stateTable_ok (h : States zoom coordOf n st) (hn : 1 ≤ n) (hS : 1 ≤ S) {L : Lat n 1 1}
    (hL : ∀ i, L.points i = ![((i : ℕ) : ℝ)]) :
    ∃ table objs, stateTable zoom coordOf L ((List.range S).map fun s : ℕ => (s : ℤ)) = .ok table ∧
      IndexTable.init objs 0 = .ok table ∧
      ∀ s < S, ∀ i < n, table.queryIndex (st s i) = .ok ((s * n + i : ℕ) : ℤ) := by
  set objs := (List.range (S * n)).map fun q => st (q / n) (q % n) with hobjs
  have hpairs : (((List.range S).map fun s : ℕ => (s : ℤ)).flatMap fun s =>
      (List.finRange n).map fun i => (s, i)).mapM
      (fun p : ℤ × Fin n => StateID.init zoom (siteOf coordOf (L.points p.2)) p.1) = .ok objs := by
    have h1 : objs = (((List.range S).map fun s : ℕ => (s : ℤ)).flatMap fun s =>
      (List.finRange n).map fun i => (s, i)).map (fun p : ℤ × Fin n => st p.1.toNat p.2) := by
      rw [hobjs, ← flatMap_range, List.flatMap_map, List.map_flatMap]
      congr 1
      funext s
      rw [List.map_map, ← List.map_coe_finRange_eq_range, List.map_map]
      rfl
    rw [h1]
    refine mapM_ok_map fun p hp => ?_
    obtain ⟨s, hs, hp⟩ := List.mem_flatMap.1 hp
    obtain ⟨s', -, rfl⟩ := List.mem_map.1 hs
    obtain ⟨i, -, rfl⟩ := List.mem_map.1 hp
    dsimp only
    rw [hL, siteOf_pt, Int.toNat_natCast]
    exact h.init_eq s' i i.2
  have hpos : 0 < S * n := Nat.mul_pos hS hn
  obtain ⟨table, ht⟩ : ∃ table, IndexTable.init objs 0 = .ok table := by
    refine (C02_indextable_accepts objs 0).1.2 ?_
    obtain ⟨q, hq⟩ : ∃ q, S * n = q + 1 := ⟨S * n - 1, by omega⟩
    refine ⟨st 0 0, (List.range q).map (fun q => st ((q + 1) / n) ((q + 1) % n)), ?_, fun _ _ => rfl, ?_⟩
    · rw [hobjs, hq, List.range_succ_eq_map, List.map_cons, List.map_map, Nat.zero_div, Nat.zero_mod]
      rfl
    · rw [hobjs, List.pairwise_map]
      refine List.nodup_range.imp_of_mem ?_
      intro a b _ _ hab
      rw [Bool.eq_false_iff]
      intro he
      rw [ne_eq] at hab
      have hk := (stateEq_iff _ _).1 he
      have := h.inj _ _ _ _ (Nat.mod_lt a hn) (Nat.mod_lt b hn) hk
      exact hab (by rw [← Nat.div_add_mod a n, this.1, this.2, Nat.div_add_mod])
  refine ⟨table, objs, ?_, ht, fun s hs i hi => ?_⟩
  · unfold stateTable
    rw [hpairs]
    exact ht
  · have hq : s * n + i < S * n := by
      have : (s + 1) * n ≤ S * n := Nat.mul_le_mul_right n hs
      rw [Nat.add_mul] at this
      omega
    have := ((C01_indextable_bijection objs 0 table ht).2.2.2.2.1 (s * n + i) (st s i) (by
      rw [hobjs, List.getElem?_map, List.getElem?_range hq]
      have e1 : (s * n + i) / n = s := by
        rw [mul_comm, Nat.mul_add_div hn, Nat.div_eq_of_lt hi, add_zero]
      have e2 : (s * n + i) % n = i := by
        rw [mul_comm, Nat.mul_add_mod, Nat.mod_eq_of_lt hi]
      simp [e1, e2])).1
    rw [this]; simp

/-- The hopping term of one bond. -/
theorem hop_term (h : States zoom coordOf n st) (t : ℂ) {s i j : ℕ} (hi : i < n) (hj : j < n) :
    ∃ T, hoppingFactory zoom [coordOf (i : ℝ)] [coordOf (j : ℝ)] (spin0 := (s : ℤ)) (coeff := t) = .ok T ∧
      T.aocs = [⟨.creation, st s i⟩, ⟨.annihilation, st s j⟩] ∧ T.coeff = t ∧
      T.checkCompatibility = true := by
  obtain ⟨T, h1, h2, h3, h4, -⟩ := C36_hopping_factory zoom [coordOf (i : ℝ)] [coordOf (j : ℝ)] s 0 none none t
    (st s i) (st s j) (h.init_eq s i hi) (h.init_eq s j hj)
  exact ⟨T, h1, h2, h3, h4⟩

/-- The basis is closed under hopping within a species. -/
def HopClosed (n S : ℕ) (B : List ℕ) : Prop :=
  ∀ s < S, ∀ i < n, ∀ j < n, ∀ k ∈ B, ∀ k' sg,
    image [(((s * n + i : ℕ) : ℤ), .creation), (((s * n + j : ℕ) : ℤ), .annihilation)] k = some (k', sg) →
      k' ∈ B

theorem hop_matrix {objs : List StateID} {table : IndexTable StateID}
    (hT : IndexTable.init objs 0 = .ok table)
    (hq : ∀ s < S, ∀ i < n, table.queryIndex (st s i) = .ok ((s * n + i : ℕ) : ℤ)) (h64 : S * n ≤ 64)
    {B : List ℕ} (hB : B.Pairwise (· < ·)) (hcl : HopClosed n S B) {t : ℂ} {s i j : ℕ} (hs : s < S)
    (hi : i < n) (hj : j < n) {T : ParticleTerm}
    (h2 : T.aocs = [⟨.creation, st s i⟩, ⟨.annihilation, st s j⟩]) (h3 : T.coeff = t)
    (h4 : T.checkCompatibility = true) :
    ∃ M, (T.matrixRepr table B).2 = .ok M ∧ ∀ r c : Fin B.length,
      M.get r c = t * matrixElement (create (s * n + i) * annihilate (s * n + j)) (occ B[r]) (occ B[c]) := by
  have hlt : ∀ i < n, s * n + i < S * n := by
    intro i hi
    have : (s + 1) * n ≤ S * n := Nat.mul_le_mul_right n hs
    rw [Nat.add_mul] at this
    omega
  rw [C23_compatible_terms_partial objs 0 table hT T B none h4 fun _ => ⟨rfl, hB⟩, matrixRepr_none]
  have hind : ({ T with classification := .general } : ParticleTerm).indexed table =
      .ok [(((s * n + i : ℕ) : ℤ), .creation), (((s * n + j : ℕ) : ℤ), .annihilation)] := by
    unfold ParticleTerm.indexed
    dsimp only
    rw [h2, mapM_ok_iff]
    exact .cons (by simp [hq s hs i hi, bind, Except.bind, pure, Except.pure])
      (.cons (by simp [hq s hs j hj, bind, Except.bind, pure, Except.pure]) .nil)
  rw [hind]
  have hv : ValidTerm [(((s * n + i : ℕ) : ℤ), Otype.creation), (((s * n + j : ℕ) : ℤ), .annihilation)] := by
    refine ⟨by simp, fun p hp => ?_⟩
    have h1 := hlt i hi
    have h2 := hlt j hj
    simp only [List.mem_cons, List.not_mem_nil, or_false] at hp
    rcases hp with rfl | rfl <;> dsimp only <;> omega
  obtain ⟨M, hM⟩ := general_csr_of (right := B) (left := none) t hv hB (fun h => h)
    (fun k hk k' sg him => hcl s hs i hi j hj k hk k' sg him)
  refine ⟨M, by rw [← h3] at hM; exact hM, fun r c => ?_⟩
  rw [general_csr_get hM (hB.imp fun h => Nat.ne_of_lt h) r c r.2 c.2]
  rfl

/-- The site of the cluster equivalent to an integer coordinate. -/
noncomputable def res (n : ℕ) (x : ℝ) : ℕ := (⌊x⌋ % (n : ℤ)).toNat

theorem res_lt (hn : 1 ≤ n) (x : ℝ) : res n x < n := by
  unfold res
  have h1 := Int.emod_lt_of_pos ⌊x⌋ (show (0 : ℤ) < n by omega)
  have h2 := Int.emod_nonneg ⌊x⌋ (show (n : ℤ) ≠ 0 by omega)
  omega

theorem res_of_eq {x : ℝ} {a : ℕ} (ha : a < n) {z : ℤ} (hx : x = a + z * n) : res n x = a := by
  have : x = ((a + z * n : ℤ) : ℝ) := by rw [hx]; push_cast; ring
  unfold res
  rw [this, Int.floor_intCast, Int.add_mul_emod_self_right]
  have : (a : ℤ) % n = a := Int.emod_eq_of_lt (by omega) (by omega)
  omega

/-- The terms appended by the loop. -/
theorem termLoop_ok {L : Lat n 1 1} (hn : 1 ≤ n)
    (hdec : ∀ z : ℤ, ∃ y, decompose prec L ![(z : ℝ)] = some (.ok (![((res n z : ℕ) : ℝ)], y)))
    {t : ℂ} {T : ℕ → ℕ → ℕ → ParticleTerm}
    (hT : ∀ s i j : ℕ, i < n → j < n →
      hoppingFactory zoom [coordOf (i : ℝ)] [coordOf (j : ℝ)] (spin0 := (s : ℤ)) (coeff := t) = .ok (T s i j))
    (bs : List (LBond 1)) (hbs : ∀ b ∈ bs, ∃ z w : ℤ, b = (![(z : ℝ)], ![(w : ℝ)])) :
    termLoop zoom coordOf prec L ((List.range S).map fun s : ℕ => (s : ℤ)) t bs =
      some (.ok (bs.flatMap fun b => (List.range S).map fun s => T s (res n (b.1 0)) (res n (b.2 0)))) := by
  induction bs with
  | nil => rfl
  | cons b bs ih =>
    obtain ⟨z, w, rfl⟩ := hbs _ List.mem_cons_self
    obtain ⟨y, hy⟩ := hdec z
    obtain ⟨y', hy'⟩ := hdec w
    have hm : ((List.range S).map fun s : ℕ => (s : ℤ)).mapM (fun s => hoppingFactory zoom
        (siteOf coordOf (![((res n z : ℕ) : ℝ)] : Pt 1)) (siteOf coordOf (![((res n w : ℕ) : ℝ)] : Pt 1))
        (spin0 := s) (coeff := t)) = .ok ((List.range S).map fun s => T s (res n z) (res n w)) := by
      have : ((List.range S).map fun s => T s (res n z) (res n w)) =
          ((List.range S).map fun s : ℕ => (s : ℤ)).map fun s => T s.toNat (res n z) (res n w) := by
        rw [List.map_map]; rfl
      rw [this]
      refine mapM_ok_map fun s hs => ?_
      obtain ⟨s', -, rfl⟩ := List.mem_map.1 hs
      rw [siteOf_pt, siteOf_pt, Int.toNat_natCast]
      exact hT s' _ _ (res_lt hn _) (res_lt hn _)
    unfold termLoop
    rw [hy]
    dsimp only
    rw [hy']
    dsimp only
    rw [hm]
    dsimp only
    rw [ih fun b hb => hbs b (List.mem_cons_of_mem _ hb)]
    rfl

/-- The matrix of an operator on a basis. -/
noncomputable def opMat (B : List ℕ) : Module.End ℂ Fock →ₗ[ℂ] Matrix (Fin B.length) (Fin B.length) ℂ where
  toFun O := Matrix.of fun r c => matrixElement O (occ B[r]) (occ B[c])
  map_add' O P := by ext r c; simp [matrixElement]
  map_smul' z O := by ext r c; simp [matrixElement]

theorem opMat_apply (B : List ℕ) (O : Module.End ℂ Fock) (r c : Fin B.length) :
    opMat B O r c = matrixElement O (occ B[r]) (occ B[c]) := rfl

theorem opMat_adj {B : List ℕ} {A A' : Module.End ℂ Fock} (h : IsAdj A A') :
    (opMat B A').conjTranspose = opMat B A := by
  ext r c
  rw [Matrix.conjTranspose_apply, opMat_apply, opMat_apply, h]
  rfl

theorem isAdj_hop (i j : ℕ) : IsAdj (create j * annihilate i) (create i * annihilate j) :=
  (isAdj_create_annihilate j).mul (isAdj_create_annihilate i).symm

theorem sum_map_flatMap {α β γ : Type _} [AddCommMonoid γ] (l : List α) (g : α → List β) (F : β → γ) :
    ((l.flatMap g).map F).sum = (l.map fun b => ((g b).map F).sum).sum := by
  induction l with
  | nil => rfl
  | cons a l ih => simp [ih]

theorem list_sum_range {γ : Type _} [AddCommMonoid γ] (S : ℕ) (f : ℕ → γ) :
    ((List.range S).map f).sum = ∑ s ∈ Finset.range S, f s := by
  induction S with
  | zero => rfl
  | succ S ih => rw [List.range_succ, List.map_append, List.sum_append, ih, Finset.sum_range_succ]; simp

theorem conjTranspose_list_sum {N : ℕ} (l : List (Matrix (Fin N) (Fin N) ℂ)) :
    l.sum.conjTranspose = (l.map Matrix.conjTranspose).sum := by
  induction l with
  | nil => simp
  | cons a l ih => simp [ih, Matrix.conjTranspose_add]

/-- The sum of the matrices of the hopping terms, made Hermitian. -/
theorem hamiltonian_ok {objs : List StateID} {table : IndexTable StateID}
    (hT : IndexTable.init objs 0 = .ok table)
    (hq : ∀ s < S, ∀ i < n, table.queryIndex (st s i) = .ok ((s * n + i : ℕ) : ℤ)) (hS : 1 ≤ S)
    (hn : 1 ≤ n) (h64 : S * n ≤ 64)
    {B : List ℕ} (hB : B.Pairwise (· < ·)) (hcl : HopClosed n S B) {t : ℝ}
    {T : ℕ → ℕ → ℕ → ParticleTerm}
    (hTT : ∀ s i j, i < n → j < n → (T s i j).aocs = [⟨.creation, st s i⟩, ⟨.annihilation, st s j⟩] ∧
      (T s i j).coeff = t ∧ (T s i j).checkCompatibility = true)
    (bs : List (LBond 1)) (hbs : bs ≠ []) :
    hamiltonian table B
        (bs.flatMap fun b => (List.range S).map fun s => T s (res n (b.1 0)) (res n (b.2 0))) =
      .ok (opMat B ((t : ℂ) • (bs.map fun b => hopPair n S (res n (b.1 0)) (res n (b.2 0))).sum)) := by
  classical
  set terms := bs.flatMap fun b => (List.range S).map fun s => T s (res n (b.1 0)) (res n (b.2 0)) with hterms
  set G : ParticleTerm → Csr := fun x => match (x.matrixRepr table B).2 with
    | .ok M => M
    | .error _ => ⟨0, 0, []⟩ with hG
  have hM : ∀ s < S, ∀ i < n, ∀ j < n, ((T s i j).matrixRepr table B).2 = .ok (G (T s i j)) ∧
      (Matrix.of fun r c : Fin B.length => (G (T s i j)).get r c) =
        (t : ℂ) • opMat B (create (s * n + i) * annihilate (s * n + j)) := by
    intro s hs i hi j hj
    obtain ⟨h2, h3, h4⟩ := hTT s i j hi hj
    obtain ⟨M, e1, e2⟩ := hop_matrix hT hq h64 hB hcl hs hi hj h2 h3 h4
    have hGM : G (T s i j) = M := by rw [hG]; dsimp only; rw [e1]
    rw [hGM]
    refine ⟨e1, ?_⟩
    ext r c
    rw [Matrix.of_apply, e2, Matrix.smul_apply, opMat_apply, smul_eq_mul]
  have hmap : terms.mapM (fun term => (term.matrixRepr table B).2) = .ok (terms.map G) := by
    refine mapM_ok_map fun x hx => ?_
    obtain ⟨b, -, hx⟩ := List.mem_flatMap.1 hx
    obtain ⟨s, hs, rfl⟩ := List.mem_map.1 hx
    exact (hM s (List.mem_range.1 hs) _ (res_lt hn _) _ (res_lt hn _)).1
  have hne : terms ≠ [] := by
    obtain ⟨b, bs', rfl⟩ := List.exists_cons_of_ne_nil hbs
    obtain ⟨q, rfl⟩ : ∃ q, S = q + 1 := ⟨S - 1, by omega⟩
    rw [hterms, List.flatMap_cons, List.range_succ]
    simp
  unfold hamiltonian
  rw [hmap]
  simp only [bind, Except.bind, if_neg hne, pure, Except.pure]
  congr 1
  rw [List.map_map, conjTranspose_list_sum, List.map_map, hterms, sum_map_flatMap, sum_map_flatMap,
    map_smul, map_list_sum, List.map_map]
  clear hmap hne hbs hterms
  clear terms
  induction bs with
  | nil => simp
  | cons b bs ih =>
    rw [List.map_cons, List.map_cons, List.map_cons, List.sum_cons, List.sum_cons, List.sum_cons, smul_add,
      ← ih, add_add_add_comm]
    congr 1
    rw [List.map_map, List.map_map, list_sum_range, list_sum_range, ← Finset.sum_add_distrib]
    simp only [Function.comp, hopPair]
    rw [map_sum, Finset.smul_sum]
    refine Finset.sum_congr rfl fun s hs => ?_
    rw [(hM s (Finset.mem_range.1 hs) _ (res_lt hn _) _ (res_lt hn _)).2, Matrix.conjTranspose_smul,
      opMat_adj (isAdj_hop _ _), map_add, smul_add]
    congr 2
    simp

end

end Verif.Demo
