import Verif.Proofs.HubbardGreen
import Verif.Proofs.DemoFinish
import Mathlib.Logic.Equiv.Fin.Basic
/-!
# Lemmas for C92: the last part of HubbardChain.py
-/

namespace Verif.Demo

open Latt LDB Spec Matrix Lanczos GF

theorem mapRun_ok {α β : Type} {f : α → Option (Py β)} {g : α → β} {l : List α} (h : ∀ a ∈ l, f a = some (.ok (g a))) :
    mapRun f l = some (.ok (l.map g)) := by
  induction l with
  | nil => rfl
  | cons a l ih =>
    unfold mapRun
    rw [h a (by simp), ih fun b hb => h b (by simp [hb])]
    rfl

theorem mapRun_map {α β γ : Type} {f : α → Option (Py β)} {e : γ → α} {g : γ → β} {l : List γ}
    (h : ∀ a ∈ l, f (e a) = some (.ok (g a))) : mapRun f (l.map e) = some (.ok (l.map g)) := by
  induction l with
  | nil => rfl
  | cons a l ih =>
    rw [List.map_cons]
    unfold mapRun
    rw [h a (by simp), ih fun b hb => h b (by simp [hb])]
    rfl

theorem sites_two (n : ℕ) : sites [0, 1] n = (List.range (2 * n)).map fun q => (q / n, q % n) :=
  flatMap_range n 2 fun s i => (s, i)

section

variable {zoom : ℤ} {coordOf : ℝ → Coord} {n : ℕ} {st : ℕ → ℕ → StateID}

/-- The operators of the cluster, by their number. -/
def creatorList (st : ℕ → ℕ → StateID) (n : ℕ) : List AoC := (List.range (2 * n)).map fun q => opC st (q / n, q % n)

theorem creators_ok (h : States zoom coordOf n st) {L : Lat n 1 1} (hL : ∀ i, L.points i = ![((i : ℕ) : ℝ)]) :
    creators zoom coordOf L = .ok (creatorList st n) := by
  have h1 : creatorList st n = (spinPair.flatMap fun s => (List.finRange n).map fun i => (s, i)).map
        (fun p : ℤ × Fin n => opC st (p.1.toNat, (p.2 : ℕ))) := by
    have : creatorList st n = (sites [0, 1] n).map (opC st) := by
      rw [sites_two, List.map_map]
      rfl
    rw [this]
    unfold sites
    rw [show spinPair = ([0, 1] : List ℕ).map fun s : ℕ => (s : ℤ) from rfl, List.flatMap_map, List.map_flatMap,
      List.map_flatMap]
    congr 1
    funext s
    rw [List.map_map, List.map_map, ← List.map_coe_finRange_eq_range, List.map_map]
    rfl
  rw [h1]
  unfold creators
  refine mapM_ok_map fun p hp => ?_
  obtain ⟨s, hs, hp⟩ := List.mem_flatMap.1 hp
  obtain ⟨i, -, rfl⟩ := List.mem_map.1 hp
  rw [hL, siteOf_pt]
  have h2 : ((s.toNat : ℕ) : ℤ) = s := by
    simp only [spinPair, List.mem_cons, List.not_mem_nil, or_false] at hs
    rcases hs with rfl | rfl <;> rfl
  have := init_opC h (p := (s.toNat, (i : ℕ))) i.2
  rw [h2] at this
  exact this

theorem creatorList_length : (creatorList st n).length = 2 * n := by simp [creatorList]

theorem creatorList_get {q : ℕ} (hq : q < (creatorList st n).length) :
    (creatorList st n)[q] = opC st (q / n, q % n) := by simp [creatorList]

theorem zipIdx_creators : (creatorList st n).zipIdx = (List.range (2 * n)).map fun q => (opC st (q / n, q % n), q) := by
  refine List.ext_getElem (by simp [creatorList]) fun q h1 h2 => ?_
  simp [creatorList]

theorem eq_op {a b : AoC} : a.eq b = true ↔ a.otype = b.otype ∧ a.state.hashKey = b.state.hashKey := by
  simp [AoC.eq, AoC.hashKey]

theorem indexOf_of {l : List AoC} {a : AoC} {q : ℕ} (hq : q < l.length) (h1 : l[q].eq a = true)
    (h2 : ∀ j (hj : j < l.length), l[j].eq a = true → j = q) : indexOf l a = .ok q := by
  unfold indexOf
  have : l.findIdx? (fun b => b.eq a) = some q := by
    rw [List.findIdx?_eq_some_iff_getElem]
    refine ⟨hq, h1, fun j hj => ?_⟩
    intro hc
    have := h2 j (by omega) hc
    omega
  rw [this]

theorem div_mod_lt {q : ℕ} (hq : q < 2 * n) : q / n < 2 ∧ q % n < n := by
  have hn : 0 < n := by omega
  exact ⟨Nat.div_lt_of_lt_mul (by omega), Nat.mod_lt _ hn⟩

theorem index_creator (h : States zoom coordOf n st) {s i : ℕ} (hs : s < 2) (hi : i < n) :
    indexOf (creatorList st n) (opC st (s, i)) = .ok (s * n + i) := by
  have hlt := site_lt hs hi
  refine indexOf_of (by rw [creatorList_length]; exact hlt) ?_ fun j hj he => ?_
  · rw [creatorList_get, eq_op]
    have e1 : (s * n + i) / n = s := by rw [mul_comm, Nat.mul_add_div (by omega), Nat.div_eq_of_lt hi, add_zero]
    have e2 : (s * n + i) % n = i := by rw [mul_comm, Nat.mul_add_mod, Nat.mod_eq_of_lt hi]
    rw [e1, e2]
    exact ⟨rfl, rfl⟩
  · rw [creatorList_get, eq_op] at he
    rw [creatorList_length] at hj
    obtain ⟨e1, e2⟩ := h.inj _ _ _ _ (div_mod_lt hj).2 hi he.2
    dsimp only at e1
    rw [← e1, ← e2, mul_comm]
    exact (Nat.div_add_mod j n).symm

theorem daggers_creators (h : States zoom coordOf n st) :
    (creatorList st n).map (daggerOf zoom) = (List.range (2 * n)).map fun q => opA st (q / n, q % n) := by
  unfold creatorList
  rw [List.map_map]
  refine List.map_congr_left fun q hq => ?_
  exact dagger_opC h (div_mod_lt (List.mem_range.1 hq)).2

theorem index_dagger (h : States zoom coordOf n st) {s i : ℕ} (hs : s < 2) (hi : i < n) :
    indexOf ((creatorList st n).map (daggerOf zoom)) (opA st (s, i)) = .ok (s * n + i) := by
  have hlt := site_lt hs hi
  rw [daggers_creators h]
  refine indexOf_of (by rw [List.length_map, List.length_range]; exact hlt) ?_ fun j hj he => ?_
  · rw [List.getElem_map, List.getElem_range, eq_op]
    have e1 : (s * n + i) / n = s := by rw [mul_comm, Nat.mul_add_div (by omega), Nat.div_eq_of_lt hi, add_zero]
    have e2 : (s * n + i) % n = i := by rw [mul_comm, Nat.mul_add_mod, Nat.mod_eq_of_lt hi]
    rw [e1, e2]
    exact ⟨rfl, rfl⟩
  · rw [List.getElem_map, List.getElem_range, eq_op] at he
    rw [List.length_map, List.length_range] at hj
    obtain ⟨e1, e2⟩ := h.inj _ _ _ _ (div_mod_lt hj).2 hi he.2
    dsimp only at e1
    rw [← e1, ← e2, mul_comm]
    exact (Nat.div_add_mod j n).symm

theorem states_one (h : States zoom coordOf n st) (hn : 1 ≤ n) : States zoom coordOf 1 st :=
  ⟨fun s i hi => h.init_eq s i (by omega), fun s s' i i' hi hi' => h.inj s s' i i' (by omega) (by omega)⟩

/-- Moving an operator into the unit cell. -/
theorem cellIndex_ok (h : States zoom coordOf n st) (hc : ∀ i < n, coordOf (i : ℝ) = .flt (.fin i)) {prec : ℕ}
    {L : Lat 1 1 1} (hdec : ∀ z : ℤ, decompose prec L ![(z : ℝ)] = some (.ok (![0], ![(z : ℝ)])))
    {ops : List AoC} {s i : ℕ} (hi : i < n) {o : Otype} {c : ℕ}
    (hidx : indexOf ops ⟨o, st s 0⟩ = .ok c) :
    cellIndex zoom coordOf prec ⟨1, 1, 1, L⟩ ops ⟨o, st s i⟩ = some (.ok (c, ![(i : ℝ)])) := by
  unfold cellIndex
  have e1 : siteVal (⟨o, st s i⟩ : AoC) = [(i : ℝ)] := siteVal_op hc h (p := (s, i)) hi rfl
  have e2 : ptOf 1 [(i : ℝ)] = .ok ![(i : ℝ)] := by
    unfold ptOf
    rw [dif_pos (show [(i : ℝ)].length = 1 from rfl)]
    congr 1
    funext a
    obtain rfl : a = 0 := Subsingleton.elim _ _
    rfl
  have e3 := hdec (i : ℤ)
  rw [Int.cast_natCast] at e3
  have hsp : (st s i).spin = s ∧ (st s i).orbit = 0 := by
    obtain ⟨-, a1, a2, -⟩ := stateInit_ok (h.init_eq s i hi)
    exact ⟨by exact_mod_cast a1, by exact_mod_cast a2⟩
  rw [e1, e2]
  dsimp only [andThen]
  rw [e3]
  dsimp only
  have e4 : AoC.derive zoom (⟨o, st s i⟩ : AoC) (site := some (siteOf coordOf (![0] : Pt 1))) = .ok ⟨o, st s 0⟩ := by
    have h0 := h.init_eq s 0 (by omega)
    rw [Nat.cast_zero] at h0
    unfold AoC.derive AoC.init
    rw [siteOf_pt]
    dsimp only [Option.getD]
    rw [hsp.1, hsp.2]
    cases o
    all_goals simp [pyAssert, h0, bind, Except.bind, pure, Except.pure]
  rw [e4]
  simp only [bind, Except.bind]
  rw [hidx]
  rfl

/-- An element of `FTs`. -/
noncomputable def ftOf (n q q' : ℕ) : Shifted 1 := ⟨q, q', q / n, q' / n, ![((q' % n : ℕ) : ℝ) - ((q % n : ℕ) : ℝ)]⟩

theorem fourierTerms_ok (h : States zoom coordOf n st) (hn : 1 ≤ n) (hc : ∀ i < n, coordOf (i : ℝ) = .flt (.fin i))
    {prec : ℕ} {L : Lat 1 1 1} (hdec : ∀ z : ℤ, decompose prec L ![(z : ℝ)] = some (.ok (![0], ![(z : ℝ)]))) :
    fourierTerms zoom coordOf prec ⟨1, 1, 1, L⟩ (creatorList st 1) (creatorList st n) =
      some (.ok ((List.range (2 * n)).map fun q => (List.range (2 * n)).map fun q' => ftOf n q q').flatten) := by
  unfold fourierTerms
  rw [zipIdx_creators]
  have h1 := states_one h hn
  rw [mapRun_map (g := fun q => (List.range (2 * n)).map fun q' => ftOf n q q')]
  · rfl
  intro q hq
  obtain ⟨a1, a2⟩ := div_mod_lt (List.mem_range.1 hq)
  have i1 := index_creator h1 a1 (i := 0) (by norm_num)
  rw [mul_one, add_zero] at i1
  have e1 : cellIndex zoom coordOf prec ⟨1, 1, 1, L⟩ (creatorList st 1) (opC st (q / n, q % n)) =
      some (.ok (q / n, ![((q % n : ℕ) : ℝ)])) := cellIndex_ok h hc hdec a2 (o := .creation) (s := q / n) i1
  dsimp only
  rw [e1]
  dsimp only [andThen]
  refine mapRun_map fun q' hq' => ?_
  obtain ⟨b1, b2⟩ := div_mod_lt (List.mem_range.1 hq')
  have i2 := index_dagger h1 b1 (i := 0) (by norm_num)
  rw [mul_one, add_zero] at i2
  have e2 : cellIndex zoom coordOf prec ⟨1, 1, 1, L⟩ ((creatorList st 1).map (daggerOf zoom)) (opA st (q' / n, q' % n)) =
      some (.ok (q' / n, ![((q' % n : ℕ) : ℝ)])) := cellIndex_ok h hc hdec b2 (o := .annihilation) (s := q' / n) i2
  dsimp only
  rw [dagger_opC h b2, e2]
  dsimp only
  unfold ftOf
  congr 3
  funext a
  obtain rfl : a = 0 := Subsingleton.elim _ _
  rfl

/-- `VTerms`: the bond between the clusters, for both spins. -/
theorem interTerms_ok (h : States zoom coordOf n st) (hn : 1 ≤ n) {prec : ℕ} {L : Lat n 1 1}
    (hdec : ∀ z : ℤ, decompose prec L ![(z : ℝ)] = some (.ok (![((res n z : ℕ) : ℝ)], ![((z / n : ℤ) : ℝ) * n])))
    {inter : List (LBond 1)} (hi : inter = [(![((n - 1 : ℕ) : ℝ)], ![(n : ℝ)])] ∨ inter = [(![0], ![-1])]) :
    interTerms zoom coordOf prec L (creatorList st n) inter =
        some (.ok [(n - 1, 0, ![(n : ℝ)]), (n + (n - 1), n, ![(n : ℝ)])]) ∨
      interTerms zoom coordOf prec L (creatorList st n) inter =
        some (.ok [(0, n - 1, ![-(n : ℝ)]), (n, n + (n - 1), ![-(n : ℝ)])]) := by
  have hz : (n : ℤ) ≠ 0 := by omega
  have key : ∀ (x y : ℝ) (i j : ℕ) (X Y : ℝ), i < n → j < n →
      decompose prec L ![x] = some (.ok (![(i : ℝ)], ![X])) → decompose prec L ![y] = some (.ok (![(j : ℝ)], ![Y])) →
      interTerms zoom coordOf prec L (creatorList st n) [(![x], ![y])] =
        some (.ok [(0 * n + i, 0 * n + j, ![Y - X]), (1 * n + i, 1 * n + j, ![Y - X])]) := by
    intro x y i j X Y hi hj hx hy
    have hspin : ∀ s : ℕ, s < 2 → (do
        let C ← AoC.init zoom 1 (siteOf coordOf (![(i : ℝ)] : Pt 1)) (s : ℤ)
        let A ← AoC.init zoom 0 (siteOf coordOf (![(j : ℝ)] : Pt 1)) (s : ℤ)
        let index0 ← indexOf (creatorList st n) C
        let index1 ← indexOf ((creatorList st n).map (daggerOf zoom)) A
        return (index0, index1, (![Y] - ![X] : Pt 1)) : Py (ℕ × ℕ × Pt 1)) =
        .ok (s * n + i, s * n + j, ![Y - X]) := by
      intro s hs
      rw [siteOf_pt, siteOf_pt, init_opC h (p := (s, i)) hi, init_opA h (p := (s, j)) hj]
      simp only [bind, Except.bind]
      rw [index_creator h hs hi]
      dsimp only
      rw [index_dagger h hs hj]
      dsimp only [pure, Except.pure]
      congr 3
      funext a
      obtain rfl : a = 0 := Subsingleton.elim _ _
      rfl
    unfold interTerms
    rw [mapRun_ok (g := fun _ => [(0 * n + i, 0 * n + j, ![Y - X]), (1 * n + i, 1 * n + j, ![Y - X])])]
    · rfl
    intro b hb
    rw [List.mem_singleton] at hb
    subst hb
    dsimp only
    rw [hx]
    dsimp only [andThen]
    rw [hy]
    dsimp only
    congr 1
    have h0 := hspin 0 (by norm_num)
    have h1 := hspin 1 (by norm_num)
    rw [Nat.cast_zero] at h0
    rw [Nat.cast_one] at h1
    rw [mapM_ok_iff]
    exact .cons h0 (.cons h1 .nil)
  rcases hi with rfl | rfl
  · left
    have d1 := hdec ((n - 1 : ℕ) : ℤ)
    have d2 := hdec (n : ℤ)
    rw [Int.cast_natCast] at d1 d2
    have r1 : res n ((n - 1 : ℕ) : ℝ) = n - 1 := res_of_eq (by omega) (z := 0) (by simp)
    have r2 : res n (n : ℝ) = 0 := res_of_eq (by omega) (z := 1) (by simp)
    rw [r1, show (((n - 1 : ℕ) : ℤ) / (n : ℤ) : ℤ) = 0 from Int.ediv_eq_zero_of_lt (by omega) (by omega)] at d1
    rw [r2, Int.ediv_self hz] at d2
    have := key _ _ (n - 1) 0 _ _ (by omega) (by omega) d1 d2
    rw [this]
    simp
  · right
    have d1 := hdec 0
    have d2 := hdec (-1)
    have r1 : res n ((0 : ℤ) : ℝ) = 0 := res_of_eq (by omega) (z := 0) (by simp)
    have r2 : res n ((-1 : ℤ) : ℝ) = n - 1 := res_of_eq (by omega) (z := -1) (by
      rw [Nat.cast_sub hn]
      push_cast
      ring)
    have e3 : (-1 : ℤ) / (n : ℤ) = -1 := by
      rw [Int.ediv_eq_iff_of_pos (by omega)]
      omega
    rw [r1, Int.zero_ediv] at d1
    rw [r2, e3] at d2
    rw [Int.cast_zero] at d1
    rw [Int.cast_neg, Int.cast_one] at d2
    have := key _ _ 0 (n - 1) _ _ (by omega) (by omega) d1 d2
    rw [this]
    simp

theorem shiftPhase_one (k x : ℝ) : shiftPhase [k] (![x] : Pt 1) = Complex.exp (Complex.I * ((k * x : ℝ) : ℂ)) := by
  simp [shiftPhase, List.finRange_succ]

/-- The numbering of the single-particle states. -/
def orbEquiv {N : ℕ} (hN : N = 2 * n) : Fin 2 × Fin n ≃ Fin N := finProdFinEquiv.trans (finCongr hN.symm)

theorem orbEquiv_val {N : ℕ} (hN : N = 2 * n) (p : Fin 2 × Fin n) : (orbEquiv hN p : ℕ) = p.1 * n + p.2 := by
  simp [orbEquiv, finProdFinEquiv]
  ring

theorem conj_phase (t a : ℝ) : star ((t : ℂ) * Complex.exp (Complex.I * (a : ℂ))) =
    (t : ℂ) * Complex.exp (-(Complex.I * (a : ℂ))) := by
  rw [star_mul', Complex.star_def, Complex.conj_ofReal, ← Complex.exp_conj, map_mul, Complex.conj_I, Complex.conj_ofReal,
    neg_mul]

theorem vMatrix_one (hn : 1 ≤ n) {N : ℕ} (hN : N = 2 * n) (t k : ℝ) :
    (vMatrix N t [k] [(n - 1, 0, (![(n : ℝ)] : Pt 1)), (n + (n - 1), n, ![(n : ℝ)])]).submatrix (orbEquiv hN) (orbEquiv hN) =
      interCluster n t k := by
  ext ⟨s, i⟩ ⟨s', j⟩
  unfold vMatrix interCluster
  simp only [Matrix.submatrix_apply, Matrix.add_apply, conjTranspose_apply, of_apply, orbEquiv_val, List.map_cons,
    List.map_nil, List.sum_cons, List.sum_nil, add_zero, shiftPhase_one]
  have hi := i.2
  have hj := j.2
  have key : ∀ (s s' : Fin 2) (i j : Fin n) (z : ℂ), (if n - 1 = (s : ℕ) * n + i ∧ 0 = (s' : ℕ) * n + j then z else 0) +
      (if n + (n - 1) = (s : ℕ) * n + i ∧ n = (s' : ℕ) * n + j then z else 0) =
      if s = s' then (if (i : ℕ) + 1 = n ∧ (j : ℕ) = 0 then z else 0) else 0 := by
    intro s s' i j z
    have hi := i.2
    have hj := j.2
    have h00 : (s = 0 ∨ s = 1) := by omega
    have h01 : (s' = 0 ∨ s' = 1) := by omega
    rcases h00 with rfl | rfl <;> rcases h01 with rfl | rfl <;>
      simp only [Fin.val_zero, Fin.val_one, zero_mul, one_mul, zero_add, if_true] <;> split_ifs <;>
      first | omega | rfl | simp
  rw [key, star_add, apply_ite star, apply_ite star, star_zero, key, conj_phase]
  push_cast
  by_cases hs : s = s'
  · subst hs
    simp only [if_true]
    congr 1
    exact if_congr and_comm rfl rfl
  · rw [if_neg hs, if_neg hs, if_neg (Ne.symm hs), add_zero]

theorem vMatrix_two (hn : 1 ≤ n) {N : ℕ} (hN : N = 2 * n) (t k : ℝ) :
    (vMatrix N t [k] [(0, n - 1, (![-(n : ℝ)] : Pt 1)), (n, n + (n - 1), ![-(n : ℝ)])]).submatrix (orbEquiv hN) (orbEquiv hN) =
      interCluster n t k := by
  ext ⟨s, i⟩ ⟨s', j⟩
  unfold vMatrix interCluster
  simp only [Matrix.submatrix_apply, Matrix.add_apply, conjTranspose_apply, of_apply, orbEquiv_val, List.map_cons,
    List.map_nil, List.sum_cons, List.sum_nil, add_zero, shiftPhase_one]
  have hi := i.2
  have hj := j.2
  have key : ∀ (s s' : Fin 2) (i j : Fin n) (z : ℂ), (if 0 = (s : ℕ) * n + i ∧ n - 1 = (s' : ℕ) * n + j then z else 0) +
      (if n = (s : ℕ) * n + i ∧ n + (n - 1) = (s' : ℕ) * n + j then z else 0) =
      if s = s' then (if (i : ℕ) = 0 ∧ (j : ℕ) + 1 = n then z else 0) else 0 := by
    intro s s' i j z
    have hi := i.2
    have hj := j.2
    have h00 : (s = 0 ∨ s = 1) := by omega
    have h01 : (s' = 0 ∨ s' = 1) := by omega
    rcases h00 with rfl | rfl <;> rcases h01 with rfl | rfl <;>
      simp only [Fin.val_zero, Fin.val_one, zero_mul, one_mul, zero_add, if_true] <;> split_ifs <;>
      first | omega | rfl | simp
  rw [key, star_add, apply_ite star, apply_ite star, star_zero, key, conj_phase]
  push_cast
  rw [mul_neg, mul_neg, neg_neg, add_comm]
  by_cases hs : s = s'
  · subst hs
    simp only [if_true]
    congr 1
    exact if_congr and_comm rfl rfl
  · rw [if_neg hs, if_neg hs, if_neg (Ne.symm hs), add_zero]

theorem sum_orbitals {M : Type _} [AddCommMonoid M] (F : ℕ → M) :
    ∑ q ∈ Finset.range (2 * n), F q = ∑ s : Fin 2, ∑ i : Fin n, F (s * n + i) := by
  rw [Finset.sum_range, ← Equiv.sum_comp (orbEquiv (n := n) rfl), Fintype.sum_prod_type]
  refine Finset.sum_congr rfl fun s _ => Finset.sum_congr rfl fun i _ => ?_
  rw [orbEquiv_val]

/-- `np.trace(temp)`. -/
theorem periodize_ok {N : ℕ} (hN : N = 2 * n) (k : ℝ) (P : Matrix (Fin N) (Fin N) ℂ) :
    periodize [k] 2 ((List.range (2 * n)).map fun q => (List.range (2 * n)).map fun q' => ftOf n q q').flatten P =
      ∑ s : Fin 2, ∑ i : Fin n, ∑ j : Fin n, P.submatrix (orbEquiv hN) (orbEquiv hN) (s, i) (s, j) *
        Complex.exp (Complex.I * (k * ((j : ℕ) - (i : ℕ) : ℝ))) := by
  unfold periodize
  rw [Matrix.trace]
  refine Finset.sum_congr rfl fun a _ => ?_
  rw [diag_apply, of_apply, List.map_flatten, List.sum_flatten, List.map_map, List.map_map, list_sum_range, sum_orbitals]
  have hrow : ∀ (s : Fin 2) (i : Fin n), ((List.sum ∘ (List.map fun f : Shifted 1 =>
        if f.i1 = (a : ℕ) ∧ f.j1 = (a : ℕ) then (if h : f.i0 < N ∧ f.j0 < N then P ⟨f.i0, h.1⟩ ⟨f.j0, h.2⟩ else 0) *
          shiftPhase [k] f.dR else 0)) ∘ fun q => (List.range (2 * n)).map fun q' => ftOf n q q') (s * n + i) =
      if s = a then ∑ j : Fin n, P.submatrix (orbEquiv hN) (orbEquiv hN) (a, i) (a, j) *
        Complex.exp (Complex.I * (k * ((j : ℕ) - (i : ℕ) : ℝ))) else 0 := by
    intro s i
    have e1 : ((s : ℕ) * n + i) / n = s := by
      rw [mul_comm, Nat.mul_add_div (by have := i.2; omega), Nat.div_eq_of_lt i.2, add_zero]
    have e2 : ((s : ℕ) * n + i) % n = i := by rw [mul_comm, Nat.mul_add_mod, Nat.mod_eq_of_lt i.2]
    dsimp only [Function.comp]
    rw [List.map_map, list_sum_range, sum_orbitals]
    have hin : ∀ (s' : Fin 2) (j : Fin n), ((fun f : Shifted 1 =>
        if f.i1 = (a : ℕ) ∧ f.j1 = (a : ℕ) then (if h : f.i0 < N ∧ f.j0 < N then P ⟨f.i0, h.1⟩ ⟨f.j0, h.2⟩ else 0) *
          shiftPhase [k] f.dR else 0) ∘ fun q' => ftOf n (s * n + i) q') (s' * n + j) =
        if s' = a then (if s = a then P.submatrix (orbEquiv hN) (orbEquiv hN) (a, i) (a, j) *
        Complex.exp (Complex.I * (k * ((j : ℕ) - (i : ℕ) : ℝ))) else 0) else 0 := by
      intro s' j
      have e3 : ((s' : ℕ) * n + j) / n = s' := by
        rw [mul_comm, Nat.mul_add_div (by have := i.2; omega), Nat.div_eq_of_lt j.2, add_zero]
      have e4 : ((s' : ℕ) * n + j) % n = j := by rw [mul_comm, Nat.mul_add_mod, Nat.mod_eq_of_lt j.2]
      dsimp only [Function.comp, ftOf]
      simp only [e1, e2, e3, e4]
      rw [shiftPhase_one]
      by_cases h1 : s = a
      · subst h1
        by_cases h2 : s' = s
        · subst h2
          rw [if_pos ⟨rfl, rfl⟩, if_pos rfl, if_pos rfl, dif_pos (by
            rw [hN]; exact ⟨site_lt s'.2 i.2, site_lt s'.2 j.2⟩)]
          congr 1
          · rw [Matrix.submatrix_apply]
            exact congrArg₂ P (Fin.ext (orbEquiv_val hN (s', i)).symm) (Fin.ext (orbEquiv_val hN (s', j)).symm)
          · push_cast
            rfl
        · rw [if_neg fun h => h2 (Fin.ext h.2), if_neg h2]
      · rw [if_neg fun h => h1 (Fin.ext h.1), if_neg h1, ite_self]
    simp_rw [hin]
    rw [Finset.sum_eq_single a (fun s' _ hs' => Finset.sum_eq_zero fun j _ => if_neg hs') (by simp)]
    simp only [if_true]
    by_cases h1 : s = a
    · simp only [if_pos h1]
    · simp only [if_neg h1, Finset.sum_const_zero]
  simp_rw [hrow]
  rw [Finset.sum_eq_single a (fun s' _ hs' => Finset.sum_eq_zero fun j _ => if_neg hs') (by simp)]
  simp only [if_true]

open Classical in
theorem pyInv_ok {N : ℕ} {M : Matrix (Fin N) (Fin N) ℂ} (h : IsUnit M) : pyInv M = .ok M⁻¹ := by
  unfold pyInv
  rw [if_pos ((Matrix.isUnit_iff_isUnit_det M).1 h)]

theorem isUnit_submatrix {N : ℕ} (e : Fin 2 × Fin n ≃ Fin N) {M : Matrix (Fin N) (Fin N) ℂ} :
    IsUnit (M.submatrix e e) ↔ IsUnit M := by
  rw [Matrix.isUnit_iff_isUnit_det, Matrix.isUnit_iff_isUnit_det, det_submatrix_equiv_self]

/-- One k-point. -/
theorem cptPoint_ok (hn : 1 ≤ n) {m N d' : ℕ} (hN : N = 2 * n) {t k : ℝ} {G : Fin m → Matrix (Fin N) (Fin N) ℂ}
    {Γ : Fin m → Matrix (Fin 2 × Fin n) (Fin 2 × Fin n) ℂ}
    (hΓ : ∀ w, (G w).submatrix (orbEquiv hN) (orbEquiv hN) = Γ w) {vts : List (ℕ × ℕ × Pt d')}
    (hV : (vMatrix N t [k] vts).submatrix (orbEquiv hN) (orbEquiv hN) = interCluster n t k)
    (hu : ∀ w, IsUnit (Γ w)) (hu2 : ∀ w, IsUnit ((Γ w)⁻¹ - interCluster n t k)) :
    ∃ F, cptPoint t 2 G ((List.range (2 * n)).map fun q => (List.range (2 * n)).map fun q' => ftOf n q q').flatten vts [k] =
        .ok F ∧ ∀ w, F w / (n : ℂ) = cptGreen n t k (Γ w) := by
  have h1 : (List.finRange m).mapM (fun w => pyInv (G w)) = .ok ((List.finRange m).map fun w => (G w)⁻¹) :=
    mapM_ok_map fun w _ => pyInv_ok ((isUnit_submatrix (orbEquiv hN)).1 (by rw [hΓ]; exact hu w))
  have hsub : ∀ w, ((G w)⁻¹ - vMatrix N t [k] vts).submatrix (orbEquiv hN) (orbEquiv hN) =
      (Γ w)⁻¹ - interCluster n t k := by
    intro w
    rw [Matrix.submatrix_sub, ← hΓ, ← hV, Matrix.inv_submatrix_equiv]
    rfl
  have h2 : ((List.finRange m).map fun w => (G w)⁻¹).mapM (fun M => pyInv (M - vMatrix N t [k] vts)) =
      .ok (((List.finRange m).map fun w => (G w)⁻¹).map fun M => (M - vMatrix N t [k] vts)⁻¹) := by
    refine mapM_ok_map fun M hM => ?_
    obtain ⟨w, -, rfl⟩ := List.mem_map.1 hM
    exact pyInv_ok ((isUnit_submatrix (orbEquiv hN)).1 (by rw [hsub]; exact hu2 w))
  refine ⟨fun w => periodize [k] 2
    ((List.range (2 * n)).map fun q => (List.range (2 * n)).map fun q' => ftOf n q q').flatten
    ((((List.finRange m).map fun w => (G w)⁻¹).map fun M => (M - vMatrix N t [k] vts)⁻¹).getD w 0), ?_, fun w => ?_⟩
  · unfold cptPoint
    rw [h1]
    simp only [bind, Except.bind]
    rw [h2]
    rfl
  · dsimp only
    rw [periodize_ok hN]
    unfold cptGreen
    congr 1
    have : (((List.finRange m).map fun w => (G w)⁻¹).map fun M => (M - vMatrix N t [k] vts)⁻¹).getD w 0 =
        ((G w)⁻¹ - vMatrix N t [k] vts)⁻¹ := by
      rw [List.map_map, List.getD_eq_getElem _ _ (by simp)]
      simp
    rw [this, ← Matrix.inv_submatrix_equiv, hsub]

/-- The k-points of the script. -/
theorem gridPoints_ok {L : Lat 1 1 1} (hb : L.bs 0 0 = 2 * Real.pi) {step : ℝ} (hs : step ≠ 0) :
    gridPoints step ⟨1, 1, 1, L⟩ = .ok ((List.range ⌈(1 + step) / step⌉₊).map fun i : ℕ =>
      [(-(1 / 2) + i * step) * (2 * Real.pi)]) := by
  unfold gridPoints kGrid
  rw [if_neg hs]
  simp only [bind, Except.bind]
  rw [dif_pos trivial, List.map_map]
  have e : (0.5 + step - -0.5) / step = (1 + step) / step := by
    congr 1
    norm_num
    ring
  rw [e]
  congr 1
  refine List.map_congr_left fun i _ => ?_
  dsimp only [Function.comp]
  simp only [List.finRange_succ, List.finRange_zero, List.map_cons, List.map_nil]
  congr 1
  have : L.bs ⟨0, Nat.one_pos⟩ 0 = 2 * Real.pi := hb
  rw [this]
  norm_num

/-- The last part of the script. -/
theorem cptFinish_ok {prec : ℕ} (hprec : 1 ≤ prec) (h : States zoom coordOf n st) (hn : 1 ≤ n)
    (hc : ∀ i < n, coordOf (i : ℝ) = .flt (.fin i)) {L : Lat n 1 1} (hL : ∀ i, L.points i = ![((i : ℕ) : ℝ)])
    (hdec : ∀ z : ℤ, decompose prec L ![(z : ℝ)] = some (.ok (![((res n z : ℕ) : ℝ)], ![((z / n : ℤ) : ℝ) * n])))
    {inter : List (LBond 1)} (hi : inter = [(![((n - 1 : ℕ) : ℝ)], ![(n : ℝ)])] ∨ inter = [(![0], ![-1])])
    {terms : List ParticleTerm} {table : IndexTable StateID} {t step : ℝ} (hs : step ≠ 0) {m : ℕ} {D : GfDict m}
    {Γ : Fin m → Matrix (Fin 2 × Fin n) (Fin 2 × Fin n) ℂ}
    (hΓ : ∀ w p q, ((D.get (opA st (p.1, p.2), opC st (q.1, q.2))).getD 0 w) = Γ w p q)
    (hu : ∀ w, IsUnit (Γ w)) (hu2 : ∀ w k, IsUnit ((Γ w)⁻¹ - interCluster n t k)) :
    ∃ R, cptFinish zoom coordOf prec n t step ⟨⟨n, 1, 1, L⟩, inter, terms, table⟩ D = some (.ok R) ∧
      R.kpts = (List.range ⌈(1 + step) / step⌉₊).map (fun i : ℕ => [(-(1 / 2) + i * step) * (2 * Real.pi)]) ∧
      ∀ w i, R.gfs w i = cptGreen n t ((-(1 / 2) + (i : ℕ) * step) * (2 * Real.pi)) (Γ w) := by
  obtain ⟨L1, e1, e2, e3, e4, e5⟩ := chain_lat (prec := prec) hprec (n := 1) le_rfl (n1 := 1) (n2 := 1) le_rfl le_rfl
  rw [Nat.cast_one] at e1
  have hb : L1.bs 0 0 = 2 * Real.pi := by
    unfold init at e4
    rw [if_neg (by norm_num), if_neg (by norm_num), dif_pos rfl] at e4
    have := (initSame_ok e4).2.2.2.2.1 0 0
    rw [if_pos rfl, Finset.univ_unique, Finset.sum_singleton] at this
    rw [e3] at this
    simpa using this
  have hdec1 : ∀ z : ℤ, decompose prec L1 ![(z : ℝ)] = some (.ok (![0], ![(z : ℝ)])) := by
    intro z
    have := decompose_chain le_rfl e2 e3 e5 z
    have hr : res 1 (z : ℝ) = 0 := by have := res_lt le_rfl (z : ℝ); omega
    rw [hr] at this
    simpa using this
  have hN : (creatorList st n).length = 2 * n := creatorList_length
  have hc1 := creators_ok (states_one h hn) (L := L1) e2
  have hcn := creators_ok h hL
  have hft := fourierTerms_ok h hn hc hdec1
  have hG : ∀ w, (gfsArray zoom (creatorList st n) D w).submatrix (orbEquiv hN) (orbEquiv hN) = Γ w := by
    intro w
    ext p q
    rw [Matrix.submatrix_apply, ← hΓ]
    unfold gfsArray
    rw [of_apply]
    have key : ∀ p : Fin 2 × Fin n, (creatorList st n)[orbEquiv hN p] = opC st (p.1, p.2) := by
      intro p
      change (creatorList st n)[(orbEquiv hN p : ℕ)] = _
      rw [creatorList_get]
      have v := orbEquiv_val hN p
      have d1 : (orbEquiv hN p : ℕ) / n = p.1 := by
        rw [v, mul_comm, Nat.mul_add_div (by omega), Nat.div_eq_of_lt p.2.2, add_zero]
      have d2 : (orbEquiv hN p : ℕ) % n = p.2 := by rw [v, mul_comm, Nat.mul_add_mod, Nat.mod_eq_of_lt p.2.2]
      rw [d1, d2]
    rw [key p, key q, dagger_opC h (p := ((p.1 : ℕ), (p.2 : ℕ))) p.2.2, dagger_opC h (p := ((q.1 : ℕ), (q.2 : ℕ))) q.2.2,
      dagger_opA h (p := ((q.1 : ℕ), (q.2 : ℕ))) q.2.2]
  obtain ⟨vts, hvts, hV⟩ : ∃ vts, interTerms zoom coordOf prec L (creatorList st n) inter = some (.ok vts) ∧
      ∀ k, (vMatrix (creatorList st n).length t [k] vts).submatrix (orbEquiv hN) (orbEquiv hN) = interCluster n t k := by
    rcases interTerms_ok h hn hdec hi with hv | hv
    · exact ⟨_, hv, fun k => vMatrix_one hn hN t k⟩
    · exact ⟨_, hv, fun k => vMatrix_two hn hN t k⟩
  choose F hF hF2 using fun k => cptPoint_ok hn hN (t := t) (k := k) hG (hV k) hu fun w => hu2 w k
  have hgrid := gridPoints_ok hb hs
  set K := ⌈(1 + step) / step⌉₊ with hK
  refine ⟨⟨(List.range K).map (fun i : ℕ => [(-(1 / 2) + i * step) * (2 * Real.pi)]), fun w i =>
    (((List.range K).map fun i : ℕ => F ((-(1 / 2) + i * step) * (2 * Real.pi))).getD i 0 w) / (n : ℂ)⟩, ?_, rfl, ?_⟩
  · unfold cptFinish
    rw [e1]
    dsimp only [andThen]
    rw [hc1]
    dsimp only
    rw [hcn]
    dsimp only
    rw [hft]
    dsimp only
    rw [hvts]
    dsimp only
    rw [hgrid]
    simp only [bind, Except.bind]
    have : ((List.range K).map (fun i : ℕ => [(-(1 / 2) + i * step) * (2 * Real.pi)])).mapM
        (cptPoint t (creatorList st 1).length (gfsArray zoom (creatorList st n) D)
          ((List.range (2 * n)).map fun q => (List.range (2 * n)).map fun q' => ftOf n q q').flatten vts) =
        .ok ((List.range K).map fun i : ℕ => F ((-(1 / 2) + i * step) * (2 * Real.pi))) := by
      rw [mapM_ok_iff, List.forall₂_map_left_iff, List.forall₂_map_right_iff, List.forall₂_same]
      intro i _
      exact hF _
    rw [this]
    rfl
  · intro w i
    dsimp only
    have hi : (i : ℕ) < K := by simpa using i.2
    rw [List.getD_eq_getElem _ _ (by simpa using hi), List.getElem_map, List.getElem_range]
    exact hF2 _ w

end

end Verif.Demo
