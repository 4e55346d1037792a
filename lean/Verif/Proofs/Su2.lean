import Verif.Proofs.HubbardNorm
import Verif.Props.Sectors
import Mathlib.Tactic.NoncommRing
/-!
# Lemmas for C99: spin rotations
-/

namespace Verif.Su2

open Spec Matrix Demo

/-! ### Commutators -/

theorem hop_create (i j l : ℕ) :
    create i * annihilate j * create l = create l * (create i * annihilate j) + (if j = l then create i else 0) := by
  refine LinearMap.ext fun f => ?_
  have h1 := congrArg (fun O : Module.End ℂ Fock => O f) (annihilate_create j l)
  have h2 := congrArg (fun O : Module.End ℂ Fock => O (annihilate j f)) (create_create i l)
  simp only [Module.End.mul_apply, LinearMap.add_apply, LinearMap.zero_apply] at h1 h2 ⊢
  have h4 := eq_neg_of_add_eq_zero_left h2
  rw [eq_sub_of_add_eq h1, map_sub, h4, sub_neg_eq_add, add_comm]
  congr 1
  by_cases e : j = l
  · rw [if_pos e, if_pos e, Module.End.one_apply]
  · rw [if_neg e, if_neg e, LinearMap.zero_apply, map_zero]

theorem hop_annihilate (i j l : ℕ) :
    create i * annihilate j * annihilate l + (if l = i then annihilate j else 0) =
      annihilate l * (create i * annihilate j) := by
  refine LinearMap.ext fun f => ?_
  have h1 := congrArg (fun O : Module.End ℂ Fock => O (annihilate j f)) (annihilate_create l i)
  have h2 := congrArg (fun O : Module.End ℂ Fock => create i (O f)) (annihilate_annihilate j l)
  simp only [Module.End.mul_apply, LinearMap.add_apply, LinearMap.zero_apply, map_add, map_zero] at h1 h2 ⊢
  have h4 := eq_neg_of_add_eq_zero_left h2
  rw [eq_sub_of_add_eq h1, h4, neg_add_eq_sub]
  congr 1
  by_cases e : l = i
  · rw [if_pos e, if_pos e, Module.End.one_apply]
  · rw [if_neg e, if_neg e, LinearMap.zero_apply, LinearMap.zero_apply]

variable {m : ℕ}

/-- the operator that turns the `d` states into the `u` states -/
noncomputable def flip (u d : Fin m → ℕ) : Module.End ℂ Fock := ∑ o, create (u o) * annihilate (d o)

variable {u d : Fin m → ℕ}

theorem flip_create_u (hud : ∀ i j, u i ≠ d j) (x : Fin m) : flip u d * create (u x) = create (u x) * flip u d := by
  unfold flip
  rw [Finset.sum_mul, Finset.mul_sum]
  refine Finset.sum_congr rfl fun o _ => ?_
  rw [hop_create, if_neg (fun e => hud x o e.symm), add_zero]

theorem flip_create_d (hd : Function.Injective d) (x : Fin m) :
    flip u d * create (d x) = create (d x) * flip u d + create (u x) := by
  unfold flip
  rw [Finset.sum_mul, Finset.mul_sum]
  simp only [hop_create, Finset.sum_add_distrib]
  congr 1
  rw [Finset.sum_eq_single x]
  · rw [if_pos rfl]
  · intro o _ ho
    rw [if_neg (fun e => ho (hd e))]
  · intro h; exact absurd (Finset.mem_univ x) h

theorem flip_annihilate_u (hu : Function.Injective u) (x : Fin m) :
    flip u d * annihilate (u x) + annihilate (d x) = annihilate (u x) * flip u d := by
  have e : annihilate (d x) = ∑ o, (if u x = u o then annihilate (d o) else 0) := by
    rw [Finset.sum_eq_single x]
    · rw [if_pos rfl]
    · intro o _ ho
      rw [if_neg (fun e => ho (hu e.symm))]
    · intro h; exact absurd (Finset.mem_univ x) h
  rw [e]
  unfold flip
  rw [Finset.sum_mul, Finset.mul_sum, ← Finset.sum_add_distrib]
  exact Finset.sum_congr rfl fun o _ => hop_annihilate _ _ _

theorem flip_annihilate_d (hud : ∀ i j, u i ≠ d j) (x : Fin m) :
    flip u d * annihilate (d x) = annihilate (d x) * flip u d := by
  unfold flip
  rw [Finset.sum_mul, Finset.mul_sum]
  refine Finset.sum_congr rfl fun o _ => ?_
  rw [← hop_annihilate, if_neg (fun e => hud o x e.symm), add_zero]

section ring
variable {R : Type*} [Ring R] {S cu cd au ad cu' cd' au' ad' : R}

theorem comm_hop (h1 : S * cu = cu * S) (h2 : S * cd = cd * S + cu) (h3 : S * au + ad = au * S) (h4 : S * ad = ad * S) :
    Commute (cu * au + cd * ad) S := by
  have h3' : S * au = au * S - ad := eq_sub_of_add_eq h3
  symm
  change S * (cu * au + cd * ad) = _
  rw [mul_add, ← mul_assoc, h1, mul_assoc, h3', ← mul_assoc S, h2, add_mul, mul_assoc cd S, h4]
  noncomm_ring

theorem comm_hubbard (h1 : S * cu = cu * S) (h2 : S * cd = cd * S + cu) (h3 : S * au + ad = au * S)
    (h4 : S * ad = ad * S) (k1 : au * cu + cu * au = 1) (k2 : ad * cd + cd * ad = 1) (k3 : cu * cu = 0)
    (k4 : ad * ad = 0) : Commute (cu * au * (cd * ad)) S := by
  have h3' : S * au = au * S - ad := eq_sub_of_add_eq h3
  have k1' : au * cu = 1 - cu * au := eq_sub_of_add_eq k1
  have k2' : ad * cd = 1 - cd * ad := eq_sub_of_add_eq k2
  symm
  change S * (cu * au * (cd * ad)) = _
  have e1 : S * (cu * au * (cd * ad)) = cu * (au * S - ad) * (cd * ad) := by
    rw [← h3', ← mul_assoc, ← mul_assoc S, h1]; noncomm_ring
  have e2 : cu * (au * S - ad) * (cd * ad) = cu * au * (S * cd) * ad - cu * (ad * cd) * ad := by noncomm_ring
  have e3 : cu * au * (S * cd) * ad = cu * au * cd * (S * ad) + cu * (au * cu) * ad := by rw [h2]; noncomm_ring
  have e4 : cu * (au * cu) * ad = cu * ad := by
    rw [k1', show cu * (1 - cu * au) * ad = cu * ad - (cu * cu) * au * ad by noncomm_ring, k3]; noncomm_ring
  have e5 : cu * (ad * cd) * ad = cu * ad := by
    rw [k2', show cu * (1 - cd * ad) * ad = cu * ad - cu * cd * (ad * ad) by noncomm_ring, k4]; noncomm_ring
  rw [e1, e2, e3, e4, e5, h4]
  noncomm_ring

theorem comm_pair_create [Algebra ℂ R] (h1 : S * cu = cu * S) (h2 : S * cd = cd * S + cu) (h1' : S * cu' = cu' * S)
    (h2' : S * cd' = cd' * S + cu') (z : ℂ) : Commute (z • (cu * cd') + (-z) • (cd * cu')) S := by
  rw [neg_smul, ← smul_neg, ← smul_add]
  refine Commute.smul_left ?_ z
  symm
  change S * (cu * cd' + -(cd * cu')) = _
  have e1 : S * (cu * cd') = cu * (S * cd') := by rw [← mul_assoc, h1, mul_assoc]
  have e2 : S * (cd * cu') = cd * (S * cu') + cu * cu' := by rw [← mul_assoc, h2, add_mul, mul_assoc]
  rw [mul_add, mul_neg, e1, e2, h2', h1']
  noncomm_ring

theorem comm_pair_annihilate [Algebra ℂ R] (h3 : S * au + ad = au * S) (h4 : S * ad = ad * S)
    (h3' : S * au' + ad' = au' * S) (h4' : S * ad' = ad' * S) (z : ℂ) :
    Commute (z • (au * ad') + (-z) • (ad * au')) S := by
  rw [neg_smul, ← smul_neg, ← smul_add]
  refine Commute.smul_left ?_ z
  symm
  change S * (au * ad' + -(ad * au')) = _
  have g3 : S * au = au * S - ad := eq_sub_of_add_eq h3
  have g3' : S * au' = au' * S - ad' := eq_sub_of_add_eq h3'
  have e1 : S * (au * ad') = au * (S * ad') - ad * ad' := by rw [← mul_assoc, g3]; noncomm_ring
  have e2 : S * (ad * au') = ad * (S * au') := by rw [← mul_assoc, h4, mul_assoc]
  rw [mul_add, mul_neg, e1, e2, h4', g3']
  noncomm_ring

end ring

/-! ### The invariant operators -/

theorem flip_hop (hu : Function.Injective u) (hd : Function.Injective d) (hud : ∀ i j, u i ≠ d j) (x y : Fin m) :
    Commute (create (u x) * annihilate (u y) + create (d x) * annihilate (d y)) (flip u d) :=
  comm_hop (R := Module.End ℂ Fock) (flip_create_u hud x) (flip_create_d hd x) (flip_annihilate_u hu y) (flip_annihilate_d hud y)

theorem flip_hubbard (hu : Function.Injective u) (hd : Function.Injective d) (hud : ∀ i j, u i ≠ d j) (x : Fin m) :
    Commute (create (u x) * annihilate (u x) * (create (d x) * annihilate (d x))) (flip u d) := by
  refine comm_hubbard (R := Module.End ℂ Fock) (flip_create_u hud x) (flip_create_d hd x) (flip_annihilate_u hu x) (flip_annihilate_d hud x)
    ?_ ?_ ?_ ?_
  · rw [annihilate_create, if_pos rfl]
  · rw [annihilate_create, if_pos rfl]
  · apply end_ext
    intro S
    simp only [Module.End.mul_apply, create_ket, LinearMap.zero_apply]
    split <;> simp [create_ket]
  · apply end_ext
    intro S
    simp only [Module.End.mul_apply, annihilate_ket, LinearMap.zero_apply]
    split <;> simp [annihilate_ket]

theorem number_comm {a b : ℕ} (h : a ≠ b) :
    create a * annihilate a * (create b * annihilate b) = create b * annihilate b * (create a * annihilate a) := by
  have h1 := hop_create a a b
  have h2 := hop_annihilate a a b
  rw [if_neg h, add_zero] at h1
  rw [if_neg h.symm, add_zero] at h2
  rw [← mul_assoc, h1, mul_assoc, h2, ← mul_assoc]

theorem flip_pair_create (hd : Function.Injective d) (hud : ∀ i j, u i ≠ d j) (x y : Fin m) (z : ℂ) :
    Commute (z • (create (u x) * create (d y)) + (-z) • (create (d x) * create (u y))) (flip u d) :=
  comm_pair_create (R := Module.End ℂ Fock) (flip_create_u hud x) (flip_create_d hd x) (flip_create_u hud y) (flip_create_d hd y) z

theorem flip_pair_annihilate (hu : Function.Injective u) (hud : ∀ i j, u i ≠ d j) (x y : Fin m) (z : ℂ) :
    Commute (z • (annihilate (u x) * annihilate (d y)) + (-z) • (annihilate (d x) * annihilate (u y))) (flip u d) :=
  comm_pair_annihilate (R := Module.End ℂ Fock) (flip_annihilate_u hu x) (flip_annihilate_d hud x) (flip_annihilate_u hu y)
    (flip_annihilate_d hud y) z

theorem isAdj_flip : IsAdj (flip u d) (flip d u) := isAdj_sum fun _ _ => isAdj_hop _ _

/-- `[S+, S-] = 2 Sz` -/
theorem flip_flip (hu : Function.Injective u) (hd : Function.Injective d) :
    flip u d * flip d u + ∑ o, create (d o) * annihilate (d o) =
      flip d u * flip u d + ∑ o, create (u o) * annihilate (u o) := by
  have h1 : ∀ o, flip u d * (create (d o) * annihilate (u o)) + create (d o) * annihilate (d o) =
      create (d o) * annihilate (u o) * flip u d + create (u o) * annihilate (u o) := by
    intro o
    rw [← mul_assoc, flip_create_d hd, add_mul, mul_assoc, add_assoc, add_comm (create (u o) * annihilate (u o)),
      ← add_assoc, ← mul_add, flip_annihilate_u hu, mul_assoc]
  have h2 : flip u d * flip d u = ∑ o, flip u d * (create (d o) * annihilate (u o)) := by
    conv_lhs => rw [show flip d u = ∑ o, create (d o) * annihilate (u o) from rfl, Finset.mul_sum]
  have h3 : flip d u * flip u d = ∑ o, create (d o) * annihilate (u o) * flip u d := by
    conv_lhs => rw [show flip d u = ∑ o, create (d o) * annihilate (u o) from rfl, Finset.sum_mul]
  rw [h2, h3, ← Finset.sum_add_distrib, ← Finset.sum_add_distrib]
  exact Finset.sum_congr rfl fun o _ => h1 o

/-! ### Terms -/

/-- index of a state -/
def idx (table : IndexTable StateID) (st : StateID) : ℕ := ((table.queryIndex st).toOption.getD 0).toNat

/-- operator of a term -/
noncomputable def opOf (table : IndexTable StateID) (t : ParticleTerm) : Module.End ℂ Fock :=
  t.coeff • fockProduct (t.aocs.map fun a => (idx table a.state, a.otype))

theorem mapsTo_zero {R L : List ℕ} : MapsTo 0 R L := by
  intro k _ U hU
  simp at hU

/-- the matrix of a list of terms -/
theorem terms_matrix {objs : List StateID} {s : ℤ} {table : IndexTable StateID}
    (hT : IndexTable.init objs s = .ok table) {B : List ℕ} (hB : B.Pairwise (· < ·)) {ts : List ParticleTerm}
    {Ms : List Csr} (hct : ∀ t ∈ ts, t.checkCompatibility = true)
    (hM : List.Forall₂ (fun t M => (ParticleTerm.matrixRepr t table B).2 = .ok M) ts Ms) :
    sumMatrix B.length Ms = opMat B ((ts.map (opOf table)).sum) ∧ MapsTo ((ts.map (opOf table)).sum) B B ∧
      ∀ t ∈ ts, ∀ a ∈ t.aocs, ∃ i : ℤ, 0 ≤ i ∧ table.queryIndex a.state = .ok i := by
  induction hM with
  | nil =>
    refine ⟨?_, ?_, by simp⟩
    · rw [List.map_nil, List.sum_nil, map_zero]; rfl
    · rw [List.map_nil, List.sum_nil]; exact mapsTo_zero
  | @cons t M ts Ms hM _ ih =>
    obtain ⟨e1, e2, e3⟩ := ih fun t ht => hct t (List.mem_cons_of_mem _ ht)
    obtain ⟨term, hterm, hv, hget, himg⟩ := compat_elements hT (hct t List.mem_cons_self) (R := B) (L := B) hB
      (fun _ => rfl) (M := M) (by
        have h0 := C23_compatible_terms_partial objs s table hT t B none (hct t List.mem_cons_self) (fun _ => ⟨rfl, hB⟩)
        have h1 := C23_compatible_terms_partial objs s table hT t B (some B) (hct t List.mem_cons_self)
          (fun _ => ⟨rfl, hB⟩)
        rw [h1, matrixRepr_none, bind_ok_iff]
        have hM' := hM
        rw [h0, matrixRepr_none, bind_ok_iff] at hM'
        exact hM')
    obtain ⟨hq, rfl⟩ := indexed_ok_iff.mp hterm
    have hop : opOf table t = t.coeff • termOperator (t.aocs.map (indexedAoC table)) := by
      unfold opOf termOperator
      rw [List.map_map]
      rfl
    refine ⟨?_, ?_, ?_⟩
    · rw [List.map_cons, List.sum_cons, map_add, ← e1, hop]
      simp only [sumMatrix, List.map_cons, List.sum_cons]
      congr 1
      ext r c
      rw [map_smul, Matrix.smul_apply, opMat_apply]
      exact hget r r.2 c c.2
    · rw [List.map_cons, List.sum_cons, hop]
      exact MapsTo.add ((mapsTo_iff_image.mpr himg).smul _) e2
    · intro t' ht'
      rcases List.mem_cons.mp ht' with rfl | ht'
      · intro a ha
        obtain ⟨i, hi⟩ := hq a ha
        refine ⟨i, ?_, hi⟩
        have := hv.2 (indexedAoC table a) (List.mem_map_of_mem ha)
        simp only [indexedAoC, hi, Except.toOption, Option.getD_some] at this
        omega
      · exact e3 t' ht'

end Verif.Su2
