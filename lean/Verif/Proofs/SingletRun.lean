import Verif.Spec.SingletGround
import Verif.Proofs.SingletCorrelations
import Verif.Proofs.Antiferromagnet
/-!
# Lemmas for C131: the clusters of the script
-/

namespace Verif.LDB

open Verif.Latt Verif.Spec Demo Matrix

section model

open Classical

variable {n m : ℕ} {S : Set (Pt m)} {d : ℝ} {points : Fin n → Pt m} {v : Fin m → Pt m} {z : ℕ}
  {bs : List (Pt m × Pt m)} {ix : Pt m → Fin n}

/-- Every site of `S` can be reached from every other by steps of length `d`. -/
def StepsConnect (S : Set (Pt m)) (d : ℝ) : Prop :=
  ∀ x ∈ S, ∀ y ∈ S, Relation.ReflTransGen (fun a b => a ∈ S ∧ b ∈ S ∧ ndist a b = d) x y

theorem ndist_shift (x y t : Pt m) : ndist (x - t) (y - t) = ndist x y := by
  unfold ndist
  congr 1
  refine Finset.sum_congr rfl fun i _ => ?_
  simp

theorem StepsConnect.shift (h : StepsConnect S d) (t : Pt m) : StepsConnect (shifted t S) d := by
  intro x hx y hy
  have key : ∀ a b, Relation.ReflTransGen (fun a b => a ∈ S ∧ b ∈ S ∧ ndist a b = d) a b →
      Relation.ReflTransGen (fun a b => a ∈ shifted t S ∧ b ∈ shifted t S ∧ ndist a b = d) (a + t) (b + t) := by
    intro a b hab
    induction hab with
    | refl => exact .refl
    | tail _ hs ih =>
      refine ih.tail ⟨?_, ?_, ?_⟩
      · change _ + t - t ∈ S; rw [add_sub_cancel_right]; exact hs.1
      · change _ + t - t ∈ S; rw [add_sub_cancel_right]; exact hs.2.1
      · rw [← ndist_shift _ _ t, add_sub_cancel_right, add_sub_cancel_right]; exact hs.2.2
  have := key _ _ (h (x - t) hx (y - t) hy)
  rwa [sub_add_cancel, sub_add_cancel] at this

theorem comb_sub' (c c' : Fin m → ℤ) : comb v (c - c') = comb v c - comb v c' := by
  funext a
  simp only [comb, Pi.sub_apply, Int.cast_sub, sub_mul, Finset.sum_sub_distrib]

/-- A point and a neighbour of it are the ends of a bond. -/
theorem RunData.bonded (h : RunData S d points v z bs ix) {k : Fin n} {x : Pt m} (hx : x ∈ S) (hd : ndist (points k) x = d) :
    (∃ b ∈ bs, ix b.1 = k ∧ ix b.2 = ix x) ∨ ∃ b ∈ bs, ix b.1 = ix x ∧ ix b.2 = k := by
  by_contra hcon
  push Not at hcon
  obtain ⟨h1, h2⟩ := hcon
  have hp := h.pairs fun i j => if i = k ∧ j = ix x then 1 else 0
  have e1 : (bs.map fun b => (if ix b.1 = k ∧ ix b.2 = ix x then (1 : ℂ) else 0) +
      if ix b.2 = k ∧ ix b.1 = ix x then 1 else 0).sum = 0 := by
    refine List.sum_eq_zero fun y hy => ?_
    obtain ⟨b, hb, rfl⟩ := List.mem_map.1 hy
    have e1 := h1 b hb
    have e2 := h2 b hb
    rw [if_neg fun e => e1 e.1 e.2, if_neg fun e => e2 e.2 e.1, add_zero]
  rw [e1] at hp
  simp only [h.finsum_eq] at hp
  have e2 : (∑ i : Fin n, ∑ y ∈ (h.finite i).toFinset, (if i = k ∧ ix y = ix x then (1 : ℂ) else 0)) =
      ((∑ i : Fin n, ∑ y ∈ (h.finite i).toFinset, (if i = k ∧ ix y = ix x then 1 else 0) : ℕ) : ℂ) := by
    push_cast; rfl
  rw [e2] at hp
  have h0 : (∑ i : Fin n, ∑ y ∈ (h.finite i).toFinset, (if i = k ∧ ix y = ix x then 1 else 0) : ℕ) = 0 := by
    exact_mod_cast hp.symm
  rw [Finset.sum_eq_zero_iff] at h0
  have h3 := h0 k (Finset.mem_univ _)
  rw [Finset.sum_eq_zero_iff] at h3
  have h4 := h3 x ((h.mem k).2 ⟨hx, hd⟩)
  rw [if_pos ⟨rfl, rfl⟩] at h4
  exact one_ne_zero h4

theorem RunData.linked (h : RunData S d points v z bs ix) (hS : StepsConnect S d) :
    Linked (bs.map fun b => (ix b.1, ix b.2)) := by
  intro i j
  have key : ∀ x y, Relation.ReflTransGen (fun a b => a ∈ S ∧ b ∈ S ∧ ndist a b = d) x y →
      Relation.ReflTransGen (fun i j => (i, j) ∈ (bs.map fun b => (ix b.1, ix b.2)) ∨
        (j, i) ∈ (bs.map fun b => (ix b.1, ix b.2))) (ix x) (ix y) := by
    intro x y hxy
    induction hxy with
    | refl => exact .refl
    | @tail x y _ hs ih =>
      refine ih.tail ?_
      obtain ⟨hx, hy, hd⟩ := hs
      obtain ⟨c, hc⟩ := h.back hx
      obtain ⟨c', hc'⟩ := h.back hy
      have e1 : y - comb v c = points (ix y) + comb v (c' - c) := by
        rw [comb_sub']
        conv_lhs => rw [hc']
        abel
      have e2 : ix (y - comb v c) = ix y := by
        rw [e1]; exact h.image _ _
      have e3 : ndist (points (ix x)) (y - comb v c) = d := by
        have : points (ix x) = x - comb v c := by
          conv_rhs => rw [hc]
          abel
        rw [this, ndist_shift, hd]
      rcases h.bonded (by rw [e1]; exact h.tiling.inside _ _) e3 with ⟨b, hb, b1, b2⟩ | ⟨b, hb, b1, b2⟩
      · exact Or.inl (List.mem_map.2 ⟨b, hb, by rw [b1, b2, e2]⟩)
      · exact Or.inr (List.mem_map.2 ⟨b, hb, by rw [b1, b2, e2]⟩)
  have := key _ _ (hS _ (h.site i) _ (h.site j))
  rwa [h.image', h.image'] at this

theorem RunData.alternates (h : RunData S d points v z bs ix) {T : Set (Pt m)} (hT : Stagger S d v T) {b : Pt m × Pt m}
    (hb : b ∈ bs) : ¬ (points (ix b.1) ∈ T ↔ points (ix b.2) ∈ T) := by
  obtain ⟨h1, h2, h3, h4⟩ := h.bond b hb
  obtain ⟨c, hc⟩ := h.back h2
  have h5 : b.2 ∈ T ↔ points (ix b.2) ∈ T := by
    conv_lhs => rw [hc]
    exact hT.iff _ c
  have h6 := hT.alternate _ h1 _ h2 h3
  rw [← h5, ← h4]
  tauto

theorem RunData.half (h : RunData S d points v z bs ix) {T : Set (Pt m)} (hT : Stagger S d v T) :
    2 * (Finset.univ.filter fun i => points i ∈ T).card = n := by
  have hp := h.pairs fun i _ => if points i ∈ T then 1 else 0
  have e1 : (bs.map fun b => (if points (ix b.1) ∈ T then (1 : ℂ) else 0) + if points (ix b.2) ∈ T then 1 else 0) =
      bs.map fun _ => 1 := by
    refine List.map_congr_left fun b hb => ?_
    have := h.alternates hT hb
    by_cases h1 : points (ix b.1) ∈ T
    · rw [if_pos h1, if_neg fun h2 => this ⟨fun _ => h2, fun _ => h1⟩, add_zero]
    · rw [if_neg h1, if_pos (by tauto), zero_add]
  rw [e1, List.map_const', List.sum_replicate] at hp
  simp only [h.finsum_eq, Finset.sum_const, h.card, nsmul_eq_mul, mul_one, mul_ite, mul_zero] at hp
  rw [← Finset.sum_filter, Finset.sum_const, nsmul_eq_mul] at hp
  have hl := h.length
  rw [hp] at hl
  have hl2 : 2 * ((Finset.univ.filter fun i => points i ∈ T).card * z) = z * n := by exact_mod_cast hl
  have := h.zpos
  refine Nat.eq_of_mul_eq_mul_left this ?_
  rw [← hl2]; ring

theorem exists_partner {A : Fin n → Prop} (h : 2 * (Finset.univ.filter A).card = n) :
    ∃ p : Fin n → Fin n, (∀ i, p (p i) = i) ∧ ∀ i, A (p i) ↔ ¬ A i := by
  have h2 := Finset.card_filter_add_card_filter_not (s := (Finset.univ : Finset (Fin n))) A
  rw [Finset.card_univ, Fintype.card_fin] at h2
  have h3 : Fintype.card {i // A i} = Fintype.card {i // ¬ A i} := by
    have h4 : Fintype.card {i // A i} = (Finset.univ.filter A).card := Fintype.card_subtype A
    have h5 : Fintype.card {i // ¬ A i} = (Finset.univ.filter fun i => ¬ A i).card := Fintype.card_subtype _
    omega
  let e := Fintype.equivOfCardEq h3
  refine ⟨fun i => if hi : A i then (e ⟨i, hi⟩ : Fin n) else (e.symm ⟨i, hi⟩ : Fin n), fun i => ?_, fun i => ?_⟩
  · by_cases hi : A i
    · have h4 : ¬ A (e ⟨i, hi⟩) := (e ⟨i, hi⟩).2
      simp only [dif_pos hi, dif_neg h4, Subtype.coe_eta, Equiv.symm_apply_apply]
    · have h4 : A (e.symm ⟨i, hi⟩) := (e.symm ⟨i, hi⟩).2
      simp only [dif_neg hi, dif_pos h4, Subtype.coe_eta, Equiv.apply_symm_apply]
  · by_cases hi : A i
    · simp only [dif_pos hi]
      exact ⟨fun h => absurd h (e ⟨i, hi⟩).2, fun h => absurd hi h⟩
    · simp only [dif_neg hi]
      exact ⟨fun _ => hi, fun _ => (e.symm ⟨i, hi⟩).2⟩

theorem RunData.halves (h : RunData S d points v z bs ix) {T : Set (Pt m)} (hT : Stagger S d v T) (hS : StepsConnect S d) :
    ∃ p, Halves (fun i => points i ∈ T) (bs.map fun b => (ix b.1, ix b.2)) p := by
  obtain ⟨p, h1, h2⟩ := exists_partner (h.half hT)
  refine ⟨p, h1, h2, fun b' hb' => ?_, h.linked hS⟩
  obtain ⟨b, hb, rfl⟩ := List.mem_map.1 hb'
  exact h.alternates hT hb

theorem RunData.pairSum_eq (h : RunData S d points v z bs ix) (hv : ∀ p c, ndist p (p + comb v c) ≠ d) (J : ℝ) :
    bondSum n J ix bs = pairSum J (bs.map fun b => (ix b.1, ix b.2)) := by
  rw [bondSum_apart J fun b hb => h.apart hv hb]
  unfold pairSum
  rw [List.map_map]
  rfl

end model

section runs

variable {m prec : ℕ}

theorem xy_of_ladder {n : ℕ} {u : Fin (2 ^ n) → ℂ} (hp : totalSpinOp n .p *ᵥ u = 0) (hm : totalSpinOp n .m *ᵥ u = 0) :
    totalSpinOp n .x *ᵥ u = 0 ∧ totalSpinOp n .y *ᵥ u = 0 := by
  rw [total_ladder.1, Matrix.add_mulVec, Matrix.smul_mulVec] at hp
  rw [total_ladder.2, Matrix.sub_mulVec, Matrix.smul_mulVec] at hm
  constructor
  · have : (2 : ℂ) • totalSpinOp n .x *ᵥ u = 0 := by
      rw [two_smul]
      linear_combination (exp := 1) hp + hm
    exact (smul_eq_zero.1 this).resolve_left two_ne_zero
  · have : (2 * Complex.I : ℂ) • totalSpinOp n .y *ᵥ u = 0 := by
      rw [mul_smul, two_smul]
      linear_combination (exp := 1) hp - hm
    exact (smul_eq_zero.1 this).resolve_left (mul_ne_zero two_ne_zero Complex.I_ne_zero)

open Classical in
theorem ground_run {S : Set (Pt m)} {d : ℝ} (hd0 : 0 < d) {z count : ℕ} (hz : 0 < z) (hc0 : 1 ≤ count)
    (hc : Coordination S d z) {v : Fin m → Pt m} {r : Py Built} (ht : ReturnsTiling S count v r)
    (hf : FindsNearest prec S d r) (hfold : FoldsEverySite prec S r) (hv : ∀ p c, ndist p (p + comb v c) ≠ d)
    {T : Set (Pt m)} (hT : Stagger S d v T) (hS : StepsConnect S d) :
    EverySpinRun (m := m) prec count r (AntiferroGround S d) := by
  obtain ⟨L0, h1, rfl, h3⟩ := ht
  refine ⟨L0, h1, fun near hnear order horder porder hporder calls J => ?_⟩
  obtain ⟨bs, ix, U, hD, hU, hH⟩ := spin_core hd0.ne' hz hc0 hc h1 h3 hf hfold hnear horder hporder calls J
  refine ⟨U, hU, fun hJ => ?_⟩
  have hherm := bondSum_hermitian (n := count) (ix := ix) (bs := bs) J
  rw [hH]
  rw [hD.pairSum_eq hv] at hherm ⊢
  obtain ⟨p, hh⟩ := hD.halves hT hS
  obtain ⟨E, hE, x, hx0, hx, hxE, huniq, hp, hm, hzz⟩ := marshall hJ hh hherm
  have htot : ∀ a ∈ [SpinOtype.x, .y, .z], totalSpinOp count a *ᵥ
      (fun a => ((sgn (fun i => L0.points i ∈ T) a * x a : ℝ) : ℂ)) = 0 := by
    intro a ha
    obtain ⟨t1, t2⟩ := xy_of_ladder hp hm
    fin_cases ha
    · exact t1
    · exact t2
    · exact hzz
  have hs0 : ∀ a, sgn (fun i => L0.points i ∈ T) a ≠ 0 := fun a e => by
    have := sgn_sq (A := fun i => L0.points i ∈ T) a
    rw [e] at this
    norm_num at this
  have hne : ∀ a : Fin (2 ^ count), ((sgn (fun i => L0.points i ∈ T) a * x a : ℝ) : ℂ) ≠ 0 ↔ 2 * downs a = count := by
    intro a
    rw [← hx a, Complex.ofReal_ne_zero]
    refine ⟨fun h => lt_of_le_of_ne (hx0 a) fun e => h (by rw [← e, mul_zero]), fun h => mul_ne_zero (hs0 a) h.ne'⟩
  refine ⟨T, E, fun a => ((sgn (fun i => L0.points i ∈ T) a * x a : ℝ) : ℂ), ⟨hT.alternate, hT.periodic⟩, hE, ?_, hxE, huniq,
    htot, fun a => ?_, fun a => ⟨x a, hx0 a, ?_⟩, fun i hi a ha => no_moment htot hi ha, fun i j hij => ⟨fun a ha =>
      isotropic htot i.2 j.2 ha, staggered hh hx0 hx htot hij⟩⟩
  · obtain ⟨a0, ha0⟩ := exists_config fun i : Fin count => L0.points i ∈ T
    have hd1 : downs a0 = (Finset.univ.filter fun i => L0.points i ∈ T).card := by
      unfold downs
      congr 1
      ext i
      simp only [Finset.mem_filter, Finset.mem_univ, true_and, ha0]
    intro e
    refine (hne a0).2 ?_ (congrFun e a0)
    have := hD.half hT
    omega
  · rw [hne a]
    have : downSpins a = downs a := by
      unfold downSpins downs
      rw [← Set.ncard_coe_finset]
      congr 1
      ext i
      simp
    rw [this]
  · have e : ∀ i : Fin count, (if digit a i = 0 then (1 : ℝ) else -1) = if digit a i = 1 then -1 else 1 := by
      intro i
      generalize digit a i = q
      fin_cases q <;> simp
    have e2 : sgn (fun i => L0.points i ∈ T) a = (-1) ^ {i : Fin count | L0.points i ∈ T ∧ digit a i = 1}.ncard := by
      unfold sgn
      rw [Finset.prod_congr rfl fun i _ => e i, ← Finset.prod_filter, Finset.prod_const, Finset.filter_filter]
      congr 1
      rw [← Set.ncard_coe_finset]
      congr 1
      ext i
      simp
    change ((sgn (fun i => L0.points i ∈ T) a * x a : ℝ) : ℂ) = _
    rw [e2]

end runs

end Verif.LDB
