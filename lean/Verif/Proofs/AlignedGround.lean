import Verif.Proofs.SingletSteps
import Verif.Spec.AlignedGround
/-!
# Lemmas for C133: the ground states of the ferromagnet
-/

namespace Verif.LDB

open Verif.Latt Verif.Spec Matrix

variable {n : ℕ} {l : List (Fin n × Fin n)} {w : Fin (2 ^ n) → ℂ}

theorem spinDot_mulVec {i j : Fin n} (hij : i ≠ j) (w : Fin (2 ^ n) → ℂ) (a : Fin (2 ^ n)) :
    (spinDot n i j *ᵥ w) a = (1 / 2 : ℂ) * w (swapped i j a) - 1 / 4 * w a := by
  have e : (spinDot n i j *ᵥ w) a = ∑ c, (if swapped i j c = a then (1 / 2 : ℂ) * w c else 0) -
      ∑ c, (if a = c then (1 / 4 : ℂ) * w c else 0) := by
    unfold Matrix.mulVec dotProduct
    rw [← Finset.sum_sub_distrib]
    refine Finset.sum_congr rfl fun c _ => ?_
    change spinDot n i j a c * w c = _
    rw [spinDot_entry hij, sub_mul, ite_mul, ite_mul, zero_mul]
  rw [e, Finset.sum_ite_eq, if_pos (Finset.mem_univ _)]
  congr 1
  rw [Finset.sum_eq_single (swapped i j a), if_pos (swapped_swapped i j a)]
  · intro c _ hc
    rw [if_neg fun h => hc (by rw [← h, swapped_swapped])]
  · intro h
    exact absurd (Finset.mem_univ _) h

theorem parallel_iff {i j : Fin n} (hij : i ≠ j) (w : Fin (2 ^ n) → ℂ) :
    spinDot n i j *ᵥ w = (1 / 4 : ℂ) • w ↔ ∀ a, w (swapped i j a) = w a := by
  constructor
  · intro h a
    have := congrFun h a
    rw [spinDot_mulVec hij, Pi.smul_apply, smul_eq_mul] at this
    linear_combination (2 : ℂ) * this
  · intro h
    funext a
    rw [spinDot_mulVec hij, Pi.smul_apply, smul_eq_mul, h]
    ring

theorem pairSum_mulVec (hne : ∀ b ∈ l, b.1 ≠ b.2) (J : ℝ) (w : Fin (2 ^ n) → ℂ) (a : Fin (2 ^ n)) :
    (pairSum J l *ᵥ w) a = J * ((l.length : ℂ) / 4 * w a - 1 / 2 * (l.map fun b => w a - w (swapped b.1 b.2 a)).sum) := by
  unfold pairSum
  induction l with
  | nil => simp
  | cons b l ih =>
    have h1 := ih fun b hb => hne b (List.mem_cons_of_mem _ hb)
    rw [List.map_cons, List.sum_cons, Matrix.add_mulVec, Pi.add_apply, h1, Matrix.smul_mulVec, Pi.smul_apply,
      smul_eq_mul, spinDot_mulVec (hne b List.mem_cons_self), List.map_cons, List.sum_cons, List.length_cons]
    push_cast
    ring

/-- How far a vector is from being symmetric under an exchange. -/
theorem swap_distance (i j : Fin n) (w : Fin (2 ^ n) → ℂ) :
    ∑ a, Complex.normSq (w a - w (swapped i j a)) = 2 * (∑ a, star (w a) * (w a - w (swapped i j a))).re := by
  have hσ : ∑ a, Complex.normSq (w (swapped i j a)) = ∑ a, Complex.normSq (w a) :=
    Equiv.sum_comp (⟨swapped i j, swapped i j, swapped_swapped i j, swapped_swapped i j⟩ : Equiv.Perm (Fin (2 ^ n)))
      fun a => Complex.normSq (w a)
  have key : ∀ a, Complex.normSq (w a - w (swapped i j a)) = 2 * (star (w a) * (w a - w (swapped i j a))).re +
      (Complex.normSq (w (swapped i j a)) - Complex.normSq (w a)) := by
    intro a
    simp only [Complex.normSq_apply, Complex.star_def, Complex.mul_re, Complex.conj_re, Complex.conj_im, Complex.sub_re,
      Complex.sub_im]
    ring
  rw [Finset.sum_congr rfl fun a _ => key a, Finset.sum_add_distrib, Finset.sum_sub_distrib, hσ, sub_self, add_zero,
    Complex.re_sum, Finset.mul_sum]

theorem swaps_of_eigen (hne : ∀ b ∈ l, b.1 ≠ b.2) {J : ℝ} (hJ : J ≠ 0)
    (h : pairSum J l *ᵥ w = ((J * l.length / 4 : ℝ) : ℂ) • w) {b : Fin n × Fin n} (hb : b ∈ l) (a : Fin (2 ^ n)) :
    w (swapped b.1 b.2 a) = w a := by
  have h0 : ∀ a, (l.map fun b => w a - w (swapped b.1 b.2 a)).sum = 0 := by
    intro a
    have h1 := congrFun h a
    rw [pairSum_mulVec hne, Pi.smul_apply, smul_eq_mul] at h1
    have hJ' : (J : ℂ) ≠ 0 := Complex.ofReal_ne_zero.2 hJ
    have h2 : (J : ℂ) * (l.map fun b => w a - w (swapped b.1 b.2 a)).sum = 0 := by
      push_cast at h1
      linear_combination (-2 : ℂ) * h1
    exact (mul_eq_zero.1 h2).resolve_left hJ'
  have h1 : (l.map fun b => ∑ a, Complex.normSq (w a - w (swapped b.1 b.2 a))).sum = 0 := by
    have e : ∀ l : List (Fin n × Fin n), (l.map fun b => ∑ a, Complex.normSq (w a - w (swapped b.1 b.2 a))).sum =
        2 * (∑ a, star (w a) * (l.map fun b => w a - w (swapped b.1 b.2 a)).sum).re := by
      intro l
      induction l with
      | nil => simp
      | cons b l ih =>
        rw [List.map_cons, List.sum_cons, ih, swap_distance, ← mul_add, ← Complex.add_re, ← Finset.sum_add_distrib]
        congr 2
        refine Finset.sum_congr rfl fun a _ => ?_
        rw [List.map_cons, List.sum_cons, mul_add]
    rw [e, Finset.sum_eq_zero fun a _ => by rw [h0 a, mul_zero], Complex.zero_re, mul_zero]
  have h2 : ∑ a, Complex.normSq (w a - w (swapped b.1 b.2 a)) = 0 := by
    refine le_antisymm ?_ (Finset.sum_nonneg fun a _ => Complex.normSq_nonneg _)
    rw [← h1]
    refine List.single_le_sum (fun x hx => ?_) _ (List.mem_map.2 ⟨b, hb, rfl⟩)
    obtain ⟨b', -, rfl⟩ := List.mem_map.1 hx
    exact Finset.sum_nonneg fun a _ => Complex.normSq_nonneg _
  have h3 := (Finset.sum_eq_zero_iff_of_nonneg fun a _ => Complex.normSq_nonneg _).1 h2 a (Finset.mem_univ _)
  exact (sub_eq_zero.1 (Complex.normSq_eq_zero.1 h3)).symm

/-- The amplitudes depend only on the number of spins down. -/
theorem symmetric_of_swaps (hne : ∀ b ∈ l, b.1 ≠ b.2) (hl : Linked l) (h : ∀ b ∈ l, ∀ a, w (swapped b.1 b.2 a) = w a)
    {a c : Fin (2 ^ n)} (hac : downs a = downs c) : w a = w c := by
  obtain ⟨g, rfl⟩ := exists_perm hac
  have hg : g ∈ Subgroup.closure {g : Equiv.Perm (Fin n) | ∃ b ∈ l, g = Equiv.swap b.1 b.2} := by
    rw [swaps_generate hne hl]
    trivial
  clear hac
  revert c
  induction hg using Subgroup.closure_induction with
  | mem g hg =>
    obtain ⟨b, hb, rfl⟩ := hg
    exact fun {c} => h b hb c
  | one =>
    intro c
    rw [spinPerm_one]
  | mul g h _ _ ihg ihh =>
    intro c
    rw [spinPerm_mul, ihg, ihh]
  | inv g _ ih =>
    intro c
    have := ih (c := spinPerm g⁻¹ c)
    rw [← spinPerm_mul, mul_inv_cancel, spinPerm_one] at this
    exact this.symm

theorem downSpins_eq (a : Fin (2 ^ n)) : downSpins a = downs a := by
  unfold downSpins downs
  rw [← Set.ncard_coe_finset]
  congr 1
  ext i
  simp

theorem downs_zero (a : Fin (2 ^ n)) : downs a = 0 ↔ (a : ℕ) = 0 := by
  have h0 : ∀ k : Fin n, digit ((⟨0, Nat.two_pow_pos n⟩ : Fin (2 ^ n)) : ℕ) k = 0 := fun k => by simp [digit]
  have two : ∀ q : Fin 2, q ≠ 1 ↔ q = 0 := by decide
  have e : downs a = 0 ↔ ∀ k : Fin n, digit a k = 0 := by
    unfold downs
    rw [Finset.card_eq_zero, Finset.filter_eq_empty_iff]
    exact ⟨fun h k => (two _).1 (h (Finset.mem_univ k)), fun h k _ => (two _).2 (h k)⟩
  rw [e]
  refine ⟨fun h => ?_, fun h k => ?_⟩
  · have : a = ⟨0, Nat.two_pow_pos n⟩ := config_ext fun k => by rw [h k, h0 k]
    rw [this]
  · rw [h]
    exact h0 k

/-- The ground states. -/
theorem aligned_iff (hne : ∀ b ∈ l, b.1 ≠ b.2) (hl : Linked l) {J : ℝ} (hJ : J ≠ 0) (w : Fin (2 ^ n) → ℂ) :
    (pairSum J l *ᵥ w = ((J * l.length / 4 : ℝ) : ℂ) • w ↔
      ∀ i j : Fin n, i ≠ j → spinDot n i j *ᵥ w = (1 / 4 : ℂ) • w) ∧
    (pairSum J l *ᵥ w = ((J * l.length / 4 : ℝ) : ℂ) • w ↔ ∀ a c, downSpins a = downSpins c → w a = w c) := by
  have h1 : pairSum J l *ᵥ w = ((J * l.length / 4 : ℝ) : ℂ) • w → ∀ a c, downSpins a = downSpins c → w a = w c := by
    intro h a c hac
    rw [downSpins_eq, downSpins_eq] at hac
    exact symmetric_of_swaps hne hl (fun b hb => swaps_of_eigen hne hJ h hb) hac
  have h2 : (∀ a c, downSpins a = downSpins c → w a = w c) →
      ∀ i j : Fin n, i ≠ j → spinDot n i j *ᵥ w = (1 / 4 : ℂ) • w := by
    intro h i j hij
    refine (parallel_iff hij w).2 fun a => h _ _ ?_
    rw [downSpins_eq, downSpins_eq]
    exact downs_spinPerm _ _
  have h3 : (∀ i j : Fin n, i ≠ j → spinDot n i j *ᵥ w = (1 / 4 : ℂ) • w) →
      pairSum J l *ᵥ w = ((J * l.length / 4 : ℝ) : ℂ) • w := by
    intro h
    funext a
    rw [pairSum_mulVec hne, Pi.smul_apply, smul_eq_mul, List.sum_eq_zero]
    · push_cast
      ring
    · intro x hx
      obtain ⟨b, hb, rfl⟩ := List.mem_map.1 hx
      rw [(parallel_iff (hne b hb) w).1 (h _ _ (hne b hb)), sub_self]
  exact ⟨⟨fun h => h2 (h1 h), h3⟩, ⟨h1, fun h => h3 (h2 h)⟩⟩

section runs

open Demo

variable {m prec : ℕ}

open Classical in
theorem aligned_run {S : Set (Pt m)} {d : ℝ} (hd0 : d ≠ 0) {z count : ℕ} (hz : 0 < z) (hc0 : 1 ≤ count)
    (hc : Coordination S d z) {v : Fin m → Pt m} {r : Py Built} (ht : ReturnsTiling S count v r)
    (hf : FindsNearest prec S d r) (hfold : FoldsEverySite prec S r) (hv : ∀ p c, ndist p (p + comb v c) ≠ d)
    (hS : StepsConnect S d) : EverySpinRun (m := m) prec count r (AlignedGround z) := by
  obtain ⟨L0, h1, rfl, h3⟩ := ht
  refine ⟨L0, h1, fun near hnear order horder porder hporder calls J => ?_⟩
  obtain ⟨bs, ix, U, hD, hU, hH⟩ := spin_core hd0 hz hc0 hc h1 h3 hf hfold hnear horder hporder calls J
  refine ⟨U, hU, fun hJ => ?_⟩
  have ha : ∀ b ∈ bs, ix b.1 ≠ ix b.2 := fun b hb => hD.apart hv hb
  have hherm := bondSum_hermitian (n := count) (ix := ix) (bs := bs) J
  have hup := hD.up J ha
  have hlow := fun ψ hψ => hD.lower hJ.le ha (ψ := ψ) hψ
  rw [hH]
  rw [hD.pairSum_eq hv] at hherm hup hlow ⊢
  have hne : ∀ b ∈ bs.map fun b => (ix b.1, ix b.2), b.1 ≠ b.2 := by
    intro b' hb'
    obtain ⟨b, hb, rfl⟩ := List.mem_map.1 hb'
    exact ha b hb
  have hupne : upState count ≠ 0 := upState_ne
  have hE : J * z * count / 8 = J * (bs.map fun b => (ix b.1, ix b.2)).length / 4 := by
    have h4 := ((aligned_iff hne (hD.linked hS) hJ.ne (upState count)).2.2 fun a c hac => by
      rw [downSpins_eq, downSpins_eq] at hac
      unfold upState
      by_cases h : (a : ℕ) = 0
      · rw [if_pos h, if_pos ((downs_zero c).1 (by rw [← hac]; exact (downs_zero a).2 h))]
      · rw [if_neg h, if_neg fun e => h ((downs_zero a).1 (by rw [hac]; exact (downs_zero c).2 e))])
    rw [hup] at h4
    have h5 := smul_left_injective ℂ hupne h4
    exact_mod_cast h5
  rw [hE] at hup hlow ⊢
  refine ⟨⟨⟨_, hupne, hup⟩, fun y w hw0 hw => ?_⟩, aligned_iff hne (hD.linked hS) hJ.ne⟩
  obtain ⟨E, hE, -⟩ := exists_lowest (Nat.two_pow_pos count) hherm
  have h5 := hlow w hw0
  unfold expectation at h5
  have h6 : star w ⬝ᵥ w ≠ 0 := by
    rw [star_dot]
    exact Complex.ofReal_ne_zero.2 (norm2_pos hw0).ne'
  rw [hw, dotProduct_smul, smul_eq_mul, mul_div_cancel_right₀ _ h6] at h5
  exact ⟨(hE.2 y w hw0 hw).1, h5⟩

end runs

/-! ### The steps connect the other lattices -/

theorem triangle_steps : StepsConnect triangleSites 1 := by
  have h3 : Real.sqrt 3 * Real.sqrt 3 = 3 := Real.mul_self_sqrt (by norm_num)
  rintro x ⟨a, b, rfl⟩ y ⟨a', b', rfl⟩
  refine (walk (S := triangleSites) (d := 1) (fun a : ℤ => ![(a : ℝ) + (b : ℝ) / 2, (b : ℝ) * (Real.sqrt 3 / 2)])
    (fun a => .single ⟨⟨a, b, rfl⟩, ⟨a + 1, b, rfl⟩, ?_⟩) a a').trans
    (walk (S := triangleSites) (d := 1) (fun b : ℤ => ![(a' : ℝ) + (b : ℝ) / 2, (b : ℝ) * (Real.sqrt 3 / 2)])
    (fun b => .single ⟨⟨a', b, rfl⟩, ⟨a', b + 1, rfl⟩, ?_⟩) b b')
  · rw [ndist_eq_iff zero_le_one, Fin.sum_univ_two]
    simp
  · rw [ndist_eq_iff zero_le_one, Fin.sum_univ_two]
    simp only [Matrix.cons_val_zero, Matrix.cons_val_one, Matrix.cons_val_fin_one]
    push_cast
    linear_combination (1 / 4 : ℝ) * h3

/-- The site of the kagome lattice. -/
noncomputable def kagSite (a b : ℤ) : Pt 2 := ![((a : ℝ) + (b : ℝ) / 2) / 2, (b : ℝ) * (Real.sqrt 3 / 2) / 2]

theorem kagome_steps : StepsConnect kagomeSites (1 / 2) := by
  have h3 : Real.sqrt 3 * Real.sqrt 3 = 3 := Real.mul_self_sqrt (by norm_num)
  have row : ∀ b, Even b → ∀ a a', Relation.ReflTransGen (Step kagomeSites (1 / 2)) (kagSite a b) (kagSite a' b) := by
    intro b hb a a'
    have hb' : ¬ Odd b := Int.not_odd_iff_even.2 hb
    refine walk (S := kagomeSites) (d := 1 / 2) (fun a => kagSite a b) (fun a => .single ⟨⟨a, b, fun h => hb' h.2, rfl⟩, ⟨a + 1, b, fun h => hb' h.2, rfl⟩, ?_⟩) a a'
    rw [ndist_eq_iff (by norm_num), Fin.sum_univ_two]
    simp only [kagSite, Matrix.cons_val_zero, Matrix.cons_val_one, Matrix.cons_val_fin_one]
    push_cast
    ring
  have col : ∀ a, Even a → ∀ b b', Relation.ReflTransGen (Step kagomeSites (1 / 2)) (kagSite a b) (kagSite a b') := by
    intro a ha b b'
    have ha' : ¬ Odd a := Int.not_odd_iff_even.2 ha
    refine walk (S := kagomeSites) (d := 1 / 2) (fun b => kagSite a b) (fun b => .single ⟨⟨a, b, fun h => ha' h.1, rfl⟩, ⟨a, b + 1, fun h => ha' h.1, rfl⟩, ?_⟩) b b'
    rw [ndist_eq_iff (by norm_num), Fin.sum_univ_two]
    simp only [kagSite, Matrix.cons_val_zero, Matrix.cons_val_one, Matrix.cons_val_fin_one]
    push_cast
    linear_combination (1 / 16 : ℝ) * h3
  have home : ∀ a b, ¬ (Odd a ∧ Odd b) → Relation.ReflTransGen (Step kagomeSites (1 / 2)) (kagSite a b) (kagSite 0 0) := by
    intro a b h
    by_cases hb : Even b
    · exact (row b hb a 0).trans (col 0 ⟨0, rfl⟩ b 0)
    · have ha : Even a := by
        rw [← Int.not_odd_iff_even]
        exact fun ha => h ⟨ha, Int.not_even_iff_odd.1 hb⟩
      exact (col a ha b 0).trans (row 0 ⟨0, rfl⟩ a 0)
  rintro x ⟨a, b, h, rfl⟩ y ⟨a', b', h', rfl⟩
  exact (home a b h).trans (step_symm (home a' b' h'))

end Verif.LDB
