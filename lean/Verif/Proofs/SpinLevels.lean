import Verif.Proofs.SingletRun
import Verif.Spec.SpinLevels
/-!
# Lemmas for C132: the lowest level of every sector
-/

namespace Verif.LDB

open Verif.Spec Matrix

variable {n : ℕ} {M : Matrix (Fin (2 ^ n)) (Fin (2 ^ n)) ℂ} {k : ℕ}

/-- The block with `k` spins down, and `x` on the rest of the diagonal. -/
def block (M : Matrix (Fin (2 ^ n)) (Fin (2 ^ n)) ℂ) (k : ℕ) (x : ℝ) : Matrix (Fin (2 ^ n)) (Fin (2 ^ n)) ℂ :=
  fun a c => if downs a = k ∧ downs c = k then M a c else if a = c then (x : ℂ) else 0

theorem block_apply (x : ℝ) (a c : Fin (2 ^ n)) :
    block M k x a c = if downs a = k ∧ downs c = k then M a c else if a = c then (x : ℂ) else 0 := rfl

theorem form_single {N : ℕ} (M : Matrix (Fin N) (Fin N) ℂ) (a : Fin N) : form M (Pi.single a 1) = (M a a).re := by
  unfold form
  rw [Matrix.mulVec_single_one]
  simp [dotProduct, Pi.single_apply, Matrix.col_apply]

theorem block_hermitian (hM : M.IsHermitian) (x : ℝ) : (block M k x).IsHermitian := by
  ext a c
  rw [Matrix.conjTranspose_apply]
  unfold block
  by_cases h : downs a = k ∧ downs c = k
  · rw [if_pos h, if_pos h.symm]
    exact hM.apply a c
  · rw [if_neg h, if_neg fun e => h e.symm]
    by_cases e : a = c
    · rw [if_pos e, if_pos e.symm, Complex.star_def, Complex.conj_ofReal]
    · rw [if_neg e, if_neg fun e' => e e'.symm, star_zero]

theorem block_mulVec (hM : ∀ a c, downs a ≠ downs c → M a c = 0) (x : ℝ) {w : Fin (2 ^ n) → ℂ} (hw : InSector k w) :
    block M k x *ᵥ w = M *ᵥ w := by
  funext a
  unfold Matrix.mulVec dotProduct
  refine Finset.sum_congr rfl fun c _ => ?_
  by_cases hc : w c = 0
  · rw [hc, mul_zero, mul_zero]
  · have hk := hw c hc
    congr 1
    change block M k x a c = M a c
    rw [block_apply]
    by_cases ha : downs a = k
    · rw [if_pos ⟨ha, hk⟩]
    · rw [if_neg fun e => ha e.1, if_neg fun e => ha (by rw [e, hk]), hM a c (by rw [hk]; exact ha)]

theorem block_signs {σ : Fin (2 ^ n) → ℝ} {K : Fin (2 ^ n) → Fin (2 ^ n) → ℝ} (h : OffSigns M σ K) (x : ℝ) :
    OffSigns (block M k x) σ fun a c => if downs a = k ∧ downs c = k then K a c else 0 := by
  refine ⟨h.1, fun r c hrc => ?_⟩
  dsimp only [block]
  by_cases hd : downs r = k ∧ downs c = k
  · rw [if_pos hd, if_pos hd]
    exact h.2 r c hrc
  · rw [if_neg hd, if_neg hd, if_neg hrc]
    exact ⟨le_rfl, by simp⟩

/-- The lowest energy of a sector, and the absolute values of its eigenvectors. -/
theorem sector_lowest (hM : M.IsHermitian) (hsec : ∀ a c, downs a ≠ downs c → M a c = 0) {σ : Fin (2 ^ n) → ℝ}
    {K : Fin (2 ^ n) → Fin (2 ^ n) → ℝ} (hoff : OffSigns M σ K) {a0 : Fin (2 ^ n)} (ha0 : downs a0 = k) :
    ∃ E : ℝ, (∃ u, u ≠ 0 ∧ InSector k u ∧ M *ᵥ u = (E : ℂ) • u) ∧
      (∀ u, InSector k u → M *ᵥ u = (E : ℂ) • u → M *ᵥ absVec σ u = (E : ℂ) • absVec σ u) ∧
      ∀ (z : ℂ) (w : Fin (2 ^ n) → ℂ), w ≠ 0 → InSector k w → M *ᵥ w = z • w → z.im = 0 ∧ E ≤ z.re := by
  set x : ℝ := (M a0 a0).re + 1 with hx
  obtain ⟨E, hL, hE⟩ := exists_lowest (Nat.two_pow_pos n) (block_hermitian (k := k) hM x)
  refine ⟨E, ?_, fun u hu hue => ?_, fun z w h0 hw hz => hL.2 z w h0 (by rw [block_mulVec hsec x hw, hz])⟩
  · obtain ⟨⟨u, hu0, hue⟩, -⟩ := hL
    have hlt : E < x := by
      have h1 := hE (Pi.single a0 1)
      have e1 : norm2 (Pi.single a0 (1 : ℂ)) = 1 := by
        unfold norm2
        rw [Finset.sum_eq_single a0] <;> simp +contextual
      have e2 : form (block M k x) (Pi.single a0 1) = (M a0 a0).re := by
        rw [form_single, block_apply, if_pos ⟨ha0, ha0⟩]
      rw [e1, mul_one, e2] at h1
      linarith
    have hus : InSector k u := by
      intro a ha
      by_contra hk
      have h1 := congrFun hue a
      have h2 : (block M k x *ᵥ u) a = x * u a := by
        unfold Matrix.mulVec dotProduct
        rw [Finset.sum_eq_single a]
        · change block M k x a a * u a = _
          rw [block_apply, if_neg fun e => hk e.1, if_pos rfl]
        · intro c _ hc
          change block M k x a c * u c = 0
          rw [block_apply, if_neg fun e => hk e.1, if_neg fun e => hc e.symm, zero_mul]
        · intro h; exact absurd (Finset.mem_univ _) h
      rw [h2, Pi.smul_apply, smul_eq_mul] at h1
      have h3 : (x : ℂ) = E := mul_right_cancel₀ ha h1
      have h4 : x = E := by exact_mod_cast h3
      linarith
    exact ⟨u, hu0, hus, by rw [← block_mulVec hsec x hus, hue]⟩
  · have := abs_eigen (block_hermitian (k := k) hM x) (block_signs hoff x) hE (v := u) (by rw [block_mulVec hsec x hu, hue])
    rwa [block_mulVec hsec x (absVec_sector hu σ)] at this

/-! ### Some pairs are singlets, in the others both spins are up -/

variable {A F : Fin n → Prop} [DecidablePred A] {p : Fin n → Fin n}

open Classical in
/-- The spins of `F` are up, every other spin forms a singlet with its partner. -/
noncomputable def partlyPaired (A F : Fin n → Prop) [DecidablePred A] (p : Fin n → Fin n) : Fin (2 ^ n) → ℂ :=
  fun a => if ∀ i, (F i → digit a i = 0) ∧ (¬ F i → digit a (p i) ≠ digit a i) then (sgn A a : ℂ) else 0

theorem partlyPaired_turned (hp : ∀ i, p (p i) = i) (hA : ∀ i, A (p i) ↔ ¬ A i) (hF : ∀ i, F (p i) ↔ F i) {a : Fin (2 ^ n)}
    {j : Fin n} (hj : digit a j = 0) (hpj : digit a (p j) = 0) (hFj : ¬ F j) :
    partlyPaired A F p (turned (p j) a) = -partlyPaired A F p (turned j a) := by
  have hne : p j ≠ j := fun h => by
    have := hA j
    rw [h] at this
    tauto
  have hcond : ∀ j : Fin n, digit a j = 0 → digit a (p j) = 0 → p j ≠ j → ¬ F j →
      ((∀ i, (F i → digit (turned j a) i = 0) ∧ (¬ F i → digit (turned j a) (p i) ≠ digit (turned j a) i)) ↔
        ∀ i, i ≠ j → i ≠ p j → (F i → digit a i = 0) ∧ (¬ F i → digit a (p i) ≠ digit a i)) := by
    intro j hj hpj hne hFj
    constructor
    · intro h i h1 h2
      have := h i
      rwa [digit_turned_ne h1, digit_turned_ne fun e => h2 (by rw [← e, hp])] at this
    · intro h i
      by_cases h1 : i = j
      · subst h1
        refine ⟨fun e => absurd e hFj, fun _ => ?_⟩
        rw [turned_self, digit_turned_ne hne, hpj, hj]
        decide
      · by_cases h2 : i = p j
        · subst h2
          refine ⟨fun e => absurd ((hF _).1 e) hFj, fun _ => ?_⟩
          rw [hp, turned_self, digit_turned_ne hne, hpj, hj]
          decide
        · rw [digit_turned_ne h1, digit_turned_ne fun e => h2 (by rw [← e, hp])]
          exact h i h1 h2
  have hs : ∀ j : Fin n, sgn A (turned j a) = if A j then -sgn A a else sgn A a := fun j =>
    sgn_change (digit_turned_self j a) fun k hk _ => digit_turned_ne hk a
  unfold partlyPaired
  have c1 := hcond j hj hpj hne hFj
  have c2 := hcond (p j) hpj (by rw [hp]; exact hj) (by rw [hp]; exact hne.symm) (by rw [hF]; exact hFj)
  rw [hp] at c2
  have c : (∀ i, (F i → digit (turned (p j) a) i = 0) ∧ (¬ F i → digit (turned (p j) a) (p i) ≠ digit (turned (p j) a) i)) ↔
      ∀ i, (F i → digit (turned j a) i = 0) ∧ (¬ F i → digit (turned j a) (p i) ≠ digit (turned j a) i) := by
    rw [c1, c2]
    exact forall_congr' fun i => ⟨fun h x y => h y x, fun h x y => h y x⟩
  by_cases hc : ∀ i, (F i → digit (turned j a) i = 0) ∧ (¬ F i → digit (turned j a) (p i) ≠ digit (turned j a) i)
  · rw [if_pos (c.2 hc), if_pos hc, hs, hs]
    by_cases hAj : A j
    · rw [if_pos hAj, if_neg (by rw [hA]; exact not_not.2 hAj)]
      push_cast
      ring
    · rw [if_neg hAj, if_pos ((hA j).2 hAj)]
      push_cast
      rfl
  · rw [if_neg (fun h => hc (c.1 h)), if_neg hc, neg_zero]

theorem raise_partlyPaired (hp : ∀ i, p (p i) = i) (hA : ∀ i, A (p i) ↔ ¬ A i) (hF : ∀ i, F (p i) ↔ F i) :
    totalSpinOp n .p *ᵥ partlyPaired A F p = 0 := by
  funext a
  rw [raise_apply, Pi.zero_apply]
  have hne : ∀ j, p j ≠ j := fun j h => by
    have := hA j
    rw [h] at this
    tauto
  have hup : ∀ j : Fin n, digit a j = 0 → F j → partlyPaired A F p (turned j a) = 0 := by
    intro j hj hFj
    unfold partlyPaired
    rw [if_neg]
    intro h
    have := (h j).1 hFj
    rw [turned_self, hj] at this
    exact absurd this (by decide)
  have hz : ∀ j : Fin n, digit a j = 0 → digit a (p j) = 1 → partlyPaired A F p (turned j a) = 0 := by
    intro j hj hpj
    by_cases hFj : F j
    · exact hup j hj hFj
    · unfold partlyPaired
      rw [if_neg]
      intro h
      refine (h j).2 hFj ?_
      rw [turned_self, digit_turned_ne (hne j), hj, hpj]
      rfl
  refine Finset.sum_involution (fun j _ => p j) (fun j _ => ?_) (fun j _ _ => hne j) (fun j _ => Finset.mem_univ _)
    fun j _ => hp j
  have two : ∀ q : Fin 2, q = 0 ∨ q = 1 := by decide
  rcases two (digit a j) with h | h <;> rcases two (digit a (p j)) with h' | h'
  · by_cases hFj : F j
    · rw [if_pos h, if_pos h', hup j h hFj, hup (p j) h' ((hF j).2 hFj), add_zero]
    · rw [if_pos h, if_pos h', partlyPaired_turned hp hA hF h h' hFj, add_neg_cancel]
  · rw [if_pos h, hz j h h', if_neg (by rw [h']; decide), add_zero]
  · rw [if_neg (by rw [h]; decide), if_pos h', hz (p j) h' (by rw [hp]; exact h), add_zero]
  · rw [if_neg (by rw [h]; decide), if_neg (by rw [h']; decide), add_zero]

variable {l : List (Fin n × Fin n)} {J : ℝ}

/-- `k` pairs are singlets. -/
theorem exists_reference (h : Halves A l p) (hk : 2 * k ≤ n) : ∃ F : Fin n → Prop, (∀ i, F (p i) ↔ F i) ∧
    ∃ a : Fin (2 ^ n), downs a = k ∧ ∀ i, (F i → digit a i = 0) ∧ (¬ F i → digit a (p i) ≠ digit a i) := by
  classical
  have hN := h.card
  obtain ⟨B, hB, hcard⟩ := Finset.exists_subset_card_eq (s := Finset.univ.filter A) (n := (Finset.univ.filter A).card - k)
    (Nat.sub_le _ _)
  have hBA : ∀ i ∈ B, A i := fun i hi => (Finset.mem_filter.1 (hB hi)).2
  refine ⟨fun i => i ∈ B ∨ p i ∈ B, fun i => ?_, ?_⟩
  · change p i ∈ B ∨ p (p i) ∈ B ↔ i ∈ B ∨ p i ∈ B
    rw [h.pair]; exact or_comm
  · obtain ⟨a, ha⟩ := exists_config fun i : Fin n => A i ∧ i ∉ B
    have two : ∀ q : Fin 2, q ≠ 1 → q = 0 := by decide
    refine ⟨a, ?_, fun i => ⟨fun hi => two _ fun e => ?_, fun hi e => ?_⟩⟩
    · have e : downs a = (Finset.univ.filter A \ B).card := by
        unfold downs
        congr 1
        ext i
        simp only [Finset.mem_filter, Finset.mem_univ, true_and, ha, Finset.mem_sdiff]
      rw [e, Finset.card_sdiff_of_subset hB, hcard]
      omega
    · obtain ⟨h1, h2⟩ := (ha i).1 e
      rcases hi with hi | hi
      · exact h2 hi
      · exact (h.other i).1 (hBA _ hi) h1
    · push Not at hi
      have h1 := ha i
      have h2 := ha (p i)
      rw [e, h1, h.other] at h2
      by_cases hAi : A i
      · exact (h2.1 ⟨hAi, hi.1⟩).1 hAi
      · exact hAi (h2.2 ⟨hAi, hi.2⟩).1

/-- The lowest level of a sector is not degenerate and has no component of higher spin. -/
theorem sector_ground (hJ : 0 < J) (h : Halves A l p) (hH : (pairSum J l).IsHermitian) (hk : 2 * k ≤ n) :
    ∃ (E : ℝ) (u : Fin (2 ^ n) → ℂ), u ≠ 0 ∧ InSector k u ∧ pairSum J l *ᵥ u = (E : ℂ) • u ∧ totalSpinOp n .p *ᵥ u = 0 ∧
      (∀ w, InSector k w → pairSum J l *ᵥ w = (E : ℂ) • w → ∃ z : ℂ, w = z • u) ∧
      ∀ (z : ℂ) (w : Fin (2 ^ n) → ℂ), w ≠ 0 → InSector k w → pairSum J l *ᵥ w = z • w → z.im = 0 ∧ E ≤ z.re := by
  set M := pairSum J l with hM
  obtain ⟨F, hF, a0, ha0, hFa⟩ := exists_reference h hk
  have hoff : OffSigns M (sgn A) (exchanges J l) := pairSum_off hJ.le fun b hb => ⟨h.ne hb, h.alternate b hb⟩
  have hsec : ∀ a c, downs a ≠ downs c → M a c = 0 := fun a c hac => pairSum_sectors J (fun b hb => h.ne hb) hac
  obtain ⟨cp, cm⟩ := pairSum_ladder J l
  obtain ⟨E, ⟨u0, hu00, hu0s, hu0e⟩, habs, hlow⟩ := sector_lowest hH hsec hoff ha0
  have nz : ∀ w, InSector k w → M *ᵥ w = (E : ℂ) • w → ∀ a, downs a = k → w a = 0 → w = 0 := by
    intro w hws hwe a hak ha
    have hs := habs w hws hwe
    funext b
    by_cases hb : downs b = k
    · have := states_connected hJ (fun b hb => h.ne hb) h.linked (hak.trans hb.symm)
      clear hb
      induction this with
      | refl => exact ha
      | tail _ hst ih => exact zero_spreads hoff hs ih hst.1 hst.2
    · by_contra h0
      exact hb (hws b h0)
  set u := absVec (sgn A) u0 with hudef
  have hue : M *ᵥ u = (E : ℂ) • u := habs u0 hu0s hu0e
  have hus : InSector k u := absVec_sector hu0s _
  have hsne : ∀ a, sgn A a ≠ 0 := fun a e => by
    have := sgn_sq (A := A) a
    rw [e] at this
    norm_num at this
  have hpos : 0 < ‖u0 a0‖ := norm_pos_iff.2 fun e => hu00 (nz u0 hu0s hu0e a0 ha0 e)
  have hua0 : u a0 ≠ 0 := by
    rw [hudef]
    unfold absVec
    rw [Complex.ofReal_ne_zero]
    exact mul_ne_zero (hsne a0) hpos.ne'
  have uniq : ∀ w, InSector k w → M *ᵥ w = (E : ℂ) • w → ∃ z : ℂ, w = z • u := by
    intro w hws hwe
    refine ⟨w a0 / u a0, ?_⟩
    have hs : InSector k (w - (w a0 / u a0) • u) := fun a ha => by
      by_cases hwa : w a = 0
      · refine hus a fun e => ha ?_
        rw [Pi.sub_apply, Pi.smul_apply, hwa, e, smul_zero, sub_zero]
      · exact hws a hwa
    have := nz _ hs (by rw [Matrix.mulVec_sub, Matrix.mulVec_smul, hwe, hue, smul_sub, smul_comm]) a0 ha0
      (by rw [Pi.sub_apply, Pi.smul_apply, smul_eq_mul, div_mul_cancel₀ _ hua0, sub_self])
    exact sub_eq_zero.1 this
  refine ⟨E, u, fun e => hua0 (congrFun e a0), hus, hue, ?_, uniq, hlow⟩
  rcases Nat.eq_zero_or_pos k with hz | hkp
  · funext a
    rw [raise_apply, Pi.zero_apply]
    refine Finset.sum_eq_zero fun j _ => ?_
    by_cases hj : digit a j = 0
    · rw [if_pos hj]
      by_contra h0
      have := hus _ h0
      rw [downs_turned hj] at this
      omega
    · rw [if_neg hj]
  · obtain ⟨k', rfl⟩ : ∃ k', k = k' + 1 := ⟨k - 1, by omega⟩
    have hup := hus.raise
    obtain ⟨z, hz⟩ := uniq _ hup.lower (eigen_commute cm (eigen_commute cp hue))
    classical
    have hov : star (partlyPaired A F p) ⬝ᵥ u ≠ 0 := by
      have e : star (partlyPaired A F p) ⬝ᵥ u = ((∑ a : Fin (2 ^ n),
          if ∀ i, (F i → digit a i = 0) ∧ (¬ F i → digit a (p i) ≠ digit a i) then ‖u0 a‖ else 0 : ℝ) : ℂ) := by
        rw [Complex.ofReal_sum]
        refine Finset.sum_congr rfl fun a _ => ?_
        rw [Pi.star_apply, hudef]
        unfold partlyPaired absVec
        by_cases hc : ∀ i, (F i → digit a i = 0) ∧ (¬ F i → digit a (p i) ≠ digit a i)
        · rw [if_pos hc, if_pos hc, Complex.star_def, Complex.conj_ofReal, ← Complex.ofReal_mul, ← mul_assoc, sgn_sq, one_mul]
        · rw [if_neg hc, if_neg hc, star_zero, zero_mul, Complex.ofReal_zero]
      rw [e, Complex.ofReal_ne_zero]
      refine ne_of_gt (lt_of_lt_of_le hpos ?_)
      have := Finset.single_le_sum (f := fun a : Fin (2 ^ n) =>
          if ∀ i, (F i → digit a i = 0) ∧ (¬ F i → digit a (p i) ≠ digit a i) then ‖u0 a‖ else 0)
        (fun a _ => by split <;> positivity) (Finset.mem_univ a0)
      rwa [if_pos hFa] at this
    have hzz : z = 0 := by
      have h1 : star (partlyPaired A F p) ⬝ᵥ totalSpinOp n .m *ᵥ totalSpinOp n .p *ᵥ u = 0 := by
        rw [← raise_adj, ← star_mulVec_dot, raise_partlyPaired h.pair h.other hF, star_zero, zero_dotProduct]
      rw [hz, dotProduct_smul, smul_eq_mul] at h1
      exact (mul_eq_zero.1 h1).resolve_right hov
    rw [hzz, zero_smul] at hz
    refine norm2_eq_zero ?_
    have h2 : ((norm2 (totalSpinOp n .p *ᵥ u) : ℝ) : ℂ) = 0 := by
      rw [← star_dot, star_mulVec_dot, raise_adj, hz, dotProduct_zero]
    exact_mod_cast h2

/-- More spins down, lower energy. -/
theorem levels (hJ : 0 < J) (h : Halves A l p) (hH : (pairSum J l).IsHermitian) :
    ∃ (E : ℕ → ℝ) (u : ℕ → Fin (2 ^ n) → ℂ), (∀ k, 2 * k ≤ n → u k ≠ 0 ∧ InSector k (u k) ∧
      pairSum J l *ᵥ u k = (E k : ℂ) • u k ∧ totalSpinOp n .p *ᵥ u k = 0 ∧
      (∀ w, InSector k w → pairSum J l *ᵥ w = (E k : ℂ) • w → ∃ z : ℂ, w = z • u k) ∧
      ∀ (z : ℂ) (w : Fin (2 ^ n) → ℂ), w ≠ 0 → InSector k w → pairSum J l *ᵥ w = z • w → z.im = 0 ∧ E k ≤ z.re) ∧
    (∀ k k', k < k' → 2 * k' ≤ n → E k' < E k) ∧ ∀ k, 2 * k = n → IsLowest (pairSum J l) (E k) := by
  have hex : ∀ k, ∃ (E : ℝ) (u : Fin (2 ^ n) → ℂ), 2 * k ≤ n → u ≠ 0 ∧ InSector k u ∧
      pairSum J l *ᵥ u = (E : ℂ) • u ∧ totalSpinOp n .p *ᵥ u = 0 ∧
      (∀ w, InSector k w → pairSum J l *ᵥ w = (E : ℂ) • w → ∃ z : ℂ, w = z • u) ∧
      ∀ (z : ℂ) (w : Fin (2 ^ n) → ℂ), w ≠ 0 → InSector k w → pairSum J l *ᵥ w = z • w → z.im = 0 ∧ E ≤ z.re := by
    intro k
    by_cases hk : 2 * k ≤ n
    · obtain ⟨E, u, hu⟩ := sector_ground hJ h hH hk
      exact ⟨E, u, fun _ => hu⟩
    · exact ⟨0, 0, fun e => absurd e hk⟩
  choose E u hu using hex
  have step : ∀ k, 2 * (k + 1) ≤ n → E (k + 1) < E k := by
    intro k hk
    obtain ⟨h0, hs, he, -, -, -⟩ := hu k (by omega)
    obtain ⟨-, -, -, hp', huniq', hlow'⟩ := hu (k + 1) hk
    have hm0 := lower_ne hs (by omega) h0
    have hme := eigen_commute (pairSum_ladder J l).2 he
    have hle := (hlow' _ _ hm0 hs.lower hme).2
    rw [Complex.ofReal_re] at hle
    refine lt_of_le_of_ne hle fun e => ?_
    rw [← e] at hme
    obtain ⟨z, hz⟩ := huniq' _ hs.lower hme
    refine hm0 (norm2_eq_zero ?_)
    have h4 : ((norm2 (totalSpinOp n .m *ᵥ u k) : ℝ) : ℂ) = 0 := by
      rw [← star_dot, star_mulVec_dot, lower_adj, hz, Matrix.mulVec_smul, hp', smul_zero, dotProduct_zero]
    exact_mod_cast h4
  refine ⟨E, u, hu, fun k k' hkk' => ?_, fun k hk => ?_⟩
  · induction k', hkk' using Nat.le_induction with
    | base => exact step k
    | succ j _ ih => exact fun hj => (step j hj).trans (ih (by omega))
  · obtain ⟨E', hE', x, hx0, hx, hxE, -, -, -, -⟩ := marshall hJ h hH
    obtain ⟨h0, hs, he, -, -, hlow⟩ := hu k hk.le
    suffices E k = E' by rw [this]; exact hE'
    refine le_antisymm ?_ ?_
    · obtain ⟨a0, ha0⟩ := exists_config A
      have hd0 : 2 * downs a0 = n := by
        have hd1 : downs a0 = (Finset.univ.filter A).card := by
          unfold downs
          congr 1
          ext i
          simp only [Finset.mem_filter, Finset.mem_univ, true_and, ha0]
        have := h.card
        omega
      have hsne : ∀ a, sgn A a ≠ 0 := fun a e => by
        have := sgn_sq (A := A) a
        rw [e] at this
        norm_num at this
      have h1 := hlow (E' : ℂ) (fun a => ((sgn A a * x a : ℝ) : ℂ)) (fun e => by
        have e1 : ((sgn A a0 * x a0 : ℝ) : ℂ) = 0 := congrFun e a0
        rw [Complex.ofReal_eq_zero] at e1
        exact mul_ne_zero (hsne a0) ((hx a0).2 hd0).ne' e1) (fun a ha => by
        have e1 : sgn A a * x a ≠ 0 := fun e => ha (by
          change ((sgn A a * x a : ℝ) : ℂ) = 0
          rw [e, Complex.ofReal_zero])
        have := (hx a).1 (lt_of_le_of_ne (hx0 a) fun e => e1 (by rw [← e, mul_zero]))
        omega) hxE
      have h2 := h1.2
      rwa [Complex.ofReal_re] at h2
    · have := (hE'.2 _ _ h0 he).2
      rwa [Complex.ofReal_re] at this

/-! ### Every state of a given total spin reaches the sector of its highest weight -/

theorem sz_sector {u : Fin (2 ^ n) → ℂ} (hs : InSector k u) : totalSpinOp n .z *ᵥ u = ((n : ℂ) / 2 - k) • u := by
  funext a
  rw [sz_apply, Pi.smul_apply, smul_eq_mul]
  by_cases ha : u a = 0
  · rw [ha, mul_zero, mul_zero]
  · rw [hs a ha]

theorem square_eq : totalSpinSquare n =
    totalSpinOp n .m * totalSpinOp n .p + totalSpinOp n .z + totalSpinOp n .z * totalSpinOp n .z := by
  have e1 := ladder_commutator (n := n)
  have e2 : totalSpinOp n .p * totalSpinOp n .m + totalSpinOp n .m * totalSpinOp n .p =
      (2 : ℂ) • (totalSpinOp n .x * totalSpinOp n .x + totalSpinOp n .y * totalSpinOp n .y) := by
    rw [total_ladder.1, total_ladder.2]
    simp only [mul_add, add_mul, mul_sub, sub_mul, smul_mul_assoc, mul_smul_comm, smul_smul, Complex.I_mul_I, smul_add, smul_sub]
    module
  have e3 : totalSpinOp n .x * totalSpinOp n .x + totalSpinOp n .y * totalSpinOp n .y =
      totalSpinOp n .m * totalSpinOp n .p + totalSpinOp n .z := by
    have : (2 : ℂ) • (totalSpinOp n .x * totalSpinOp n .x + totalSpinOp n .y * totalSpinOp n .y) =
        (2 : ℂ) • (totalSpinOp n .m * totalSpinOp n .p + totalSpinOp n .z) := by
      rw [← e2, e1]
      module
    exact smul_right_injective _ (two_ne_zero : (2 : ℂ) ≠ 0) this
  unfold totalSpinSquare
  rw [e3]

theorem square_sectors {a c : Fin (2 ^ n)} (hac : downs a ≠ downs c) : totalSpinSquare n a c = 0 := by
  have h0 : InSector (downs c) (Pi.single c (1 : ℂ) : Fin (2 ^ n) → ℂ) := by
    intro b hb
    by_cases e : b = c
    · rw [e]
    · rw [Pi.single_eq_of_ne e] at hb
      exact absurd rfl hb
  have e1 : totalSpinSquare n = totalSpinOp n .p * totalSpinOp n .m +
      (totalSpinOp n .z * totalSpinOp n .z - totalSpinOp n .z) := by
    rw [square_eq, ladder_commutator]
    module
  have e2 : totalSpinSquare n a c = (totalSpinSquare n *ᵥ Pi.single c 1) a := by
    rw [Matrix.mulVec_single_one]; rfl
  have h1 : (Pi.single c (1 : ℂ) : Fin (2 ^ n) → ℂ) a = 0 :=
    Pi.single_eq_of_ne (fun e => hac (by rw [e])) 1
  have h2 : (totalSpinOp n .p *ᵥ totalSpinOp n .m *ᵥ (Pi.single c (1 : ℂ) : Fin (2 ^ n) → ℂ)) a = 0 := by
    by_contra h
    exact hac (h0.lower.raise a h)
  rw [e2, e1, Matrix.add_mulVec, Matrix.sub_mulVec, ← Matrix.mulVec_mulVec, ← Matrix.mulVec_mulVec, sz_sector h0,
    Matrix.mulVec_smul, sz_sector h0, Pi.add_apply, h2, Pi.sub_apply, Pi.smul_apply, Pi.smul_apply, h1]
  simp

theorem reach_top (hM : Commute M (totalSpinOp n .p)) (hk : 2 * k ≤ n) {z : ℂ} (d : ℕ) : ∀ {w : Fin (2 ^ n) → ℂ}, w ≠ 0 →
    InSector (k + d) w → M *ᵥ w = z • w →
    totalSpinOp n .m *ᵥ totalSpinOp n .p *ᵥ w = ((d : ℂ) * ((n : ℂ) - 2 * k - d + 1)) • w →
    ∃ u : Fin (2 ^ n) → ℂ, u ≠ 0 ∧ InSector k u ∧ M *ᵥ u = z • u := by
  induction d with
  | zero => exact fun h0 hs hw _ => ⟨_, h0, hs, hw⟩
  | succ d ih =>
    intro w h0 hs hw hc
    have hnw := norm2_pos h0
    have hnorm : norm2 (totalSpinOp n .p *ᵥ w) = ((d : ℝ) + 1) * ((n : ℝ) - 2 * k - d) * norm2 w := by
      have : ((norm2 (totalSpinOp n .p *ᵥ w) : ℝ) : ℂ) = (((d : ℝ) + 1) * ((n : ℝ) - 2 * k - d) * norm2 w : ℝ) := by
        rw [← star_dot, star_mulVec_dot, raise_adj, hc, dotProduct_smul, smul_eq_mul, star_dot]
        push_cast
        ring
      exact_mod_cast this
    have hlow := ladder_norm hs
    have hlow0 := norm2_nonneg' (totalSpinOp n .m *ᵥ w)
    push_cast at hlow
    rw [hnorm] at hlow
    have hpos : 0 < (n : ℝ) - 2 * k - d := by
      by_contra hle
      have hle' : n ≤ 2 * k + d := by
        have : (n : ℝ) ≤ 2 * k + d := by linarith
        exact_mod_cast this
      have hle2 : (n : ℝ) - 2 * k - d ≤ 0 := by linarith
      have hk' : (2 * k : ℝ) ≤ n := by exact_mod_cast hk
      have hd0 : (0 : ℝ) ≤ d := Nat.cast_nonneg d
      have e : norm2 (totalSpinOp n .m *ᵥ w) = ((d : ℝ) + 2) * ((n : ℝ) - 2 * k - d - 1) * norm2 w := by
        rw [hlow]; ring
      have : ((d : ℝ) + 2) * ((n : ℝ) - 2 * k - d - 1) < 0 := mul_neg_of_pos_of_neg (by linarith) (by linarith)
      have := mul_neg_of_neg_of_pos this hnw
      linarith
    have hup : InSector (k + d) (totalSpinOp n .p *ᵥ w) := InSector.raise (k := k + d) hs
    have hne : totalSpinOp n .p *ᵥ w ≠ 0 := by
      intro e
      rw [e] at hnorm
      have h4 : norm2 (0 : Fin (2 ^ n) → ℂ) = 0 := by simp [norm2]
      rw [h4] at hnorm
      have : 0 < ((d : ℝ) + 1) * ((n : ℝ) - 2 * k - d) * norm2 w := by positivity
      linarith
    refine ih hne hup (eigen_commute hM hw) ?_
    have e1 : totalSpinOp n .m * totalSpinOp n .p = totalSpinOp n .p * totalSpinOp n .m - (2 : ℂ) • totalSpinOp n .z := by
      rw [ladder_commutator]; module
    rw [Matrix.mulVec_mulVec (M := totalSpinOp n .m) (N := totalSpinOp n .p), e1, Matrix.sub_mulVec, ← Matrix.mulVec_mulVec, hc, Matrix.smul_mulVec, sz_sector hup,
      Matrix.mulVec_smul, smul_smul, ← sub_smul]
    congr 1
    push_cast
    ring

/-- A state of total spin `n/2 - k` gives one with `k` spins down, of the same energy. -/
theorem spin_reach (hM : Commute M (totalSpinOp n .p)) (hsec : ∀ a c, downs a ≠ downs c → M a c = 0) (hk : 2 * k ≤ n) {z : ℂ}
    {w : Fin (2 ^ n) → ℂ} (h0 : w ≠ 0) (hw : M *ᵥ w = z • w)
    (hS : totalSpinSquare n *ᵥ w = (((n : ℂ) / 2 - k) * ((n : ℂ) / 2 - k + 1)) • w) :
    ∃ u : Fin (2 ^ n) → ℂ, u ≠ 0 ∧ InSector k u ∧ M *ᵥ u = z • u := by
  obtain ⟨a, ha⟩ := Function.ne_iff.1 h0
  set j := downs a with hj
  have hv0 : part j w ≠ 0 := fun e => ha (by
    have := congrFun e a
    unfold part at this
    rwa [if_pos hj.symm] at this)
  have hve := part_eigen hsec hw j
  have hvS := part_eigen (fun a c h => square_sectors h) hS j
  have hvs := part_sector j w
  generalize part j w = v at hv0 hve hvS hvs
  have hladder : totalSpinOp n .m *ᵥ totalSpinOp n .p *ᵥ v =
      (((j : ℂ) - k) * ((n : ℂ) - k - j + 1)) • v := by
    rw [square_eq, Matrix.add_mulVec, Matrix.add_mulVec, ← Matrix.mulVec_mulVec, ← Matrix.mulVec_mulVec, sz_sector hvs,
      Matrix.mulVec_smul, sz_sector hvs, smul_smul] at hvS
    have : totalSpinOp n .m *ᵥ totalSpinOp n .p *ᵥ v = (((n : ℂ) / 2 - k) * ((n : ℂ) / 2 - k + 1)) • v -
        ((n : ℂ) / 2 - j) • v - (((n : ℂ) / 2 - j) * ((n : ℂ) / 2 - j)) • v := by
      rw [← hvS]; abel
    rw [this, ← sub_smul, ← sub_smul]
    congr 1
    ring
  rcases lt_or_ge j k with hlt | hge
  · exfalso
    have hnv := norm2_pos hv0
    have hnorm : norm2 (totalSpinOp n .p *ᵥ v) = ((j : ℝ) - k) * ((n : ℝ) - k - j + 1) * norm2 v := by
      have : ((norm2 (totalSpinOp n .p *ᵥ v) : ℝ) : ℂ) = (((j : ℝ) - k) * ((n : ℝ) - k - j + 1) * norm2 v : ℝ) := by
        rw [← star_dot, star_mulVec_dot, raise_adj, hladder, dotProduct_smul, smul_eq_mul, star_dot]
        push_cast
        ring
      exact_mod_cast this
    have h1 : (j : ℝ) < k := by exact_mod_cast hlt
    have h2 : (2 * k : ℝ) ≤ n := by exact_mod_cast hk
    have h3 := norm2_nonneg' (totalSpinOp n .p *ᵥ v)
    have h4 : ((j : ℝ) - k) * ((n : ℝ) - k - j + 1) < 0 := mul_neg_of_neg_of_pos (by linarith) (by linarith)
    have := mul_neg_of_neg_of_pos h4 hnv
    linarith
  · obtain ⟨d, hd⟩ := Nat.exists_eq_add_of_le hge
    rw [hd] at hvs hladder
    refine reach_top hM hk d hv0 hvs hve ?_
    rw [hladder]
    congr 1
    push_cast
    ring
/-- The square of the total spin of a state that cannot be raised. -/
theorem spin_square {u : Fin (2 ^ n) → ℂ} (hs : InSector k u) (hp : totalSpinOp n .p *ᵥ u = 0) :
    totalSpinOp n .z *ᵥ u = ((n : ℂ) / 2 - k) • u ∧
    totalSpinSquare n *ᵥ u = (((n : ℂ) / 2 - k) * ((n : ℂ) / 2 - k + 1)) • u := by
  refine ⟨sz_sector hs, ?_⟩
  rw [square_eq, Matrix.add_mulVec, Matrix.add_mulVec, ← Matrix.mulVec_mulVec, ← Matrix.mulVec_mulVec, hp, Matrix.mulVec_zero,
    sz_sector hs, Matrix.mulVec_smul, sz_sector hs]
  module

theorem sector_of_sz {u : Fin (2 ^ n) → ℂ} (h : totalSpinOp n .z *ᵥ u = ((n : ℂ) / 2 - k) • u) : InSector k u := by
  intro a ha
  have h1 := congrFun h a
  rw [sz_apply, Pi.smul_apply, smul_eq_mul] at h1
  have h2 := mul_right_cancel₀ ha h1
  have h3 : (downs a : ℂ) = k := by linear_combination -h2
  exact_mod_cast h3

section runs

open Verif.Latt Demo

variable {m prec : ℕ}

open Classical in
theorem levels_run {S : Set (Pt m)} {d : ℝ} (hd0 : 0 < d) {z count : ℕ} (hz : 0 < z) (hc0 : 1 ≤ count)
    (hc : Coordination S d z) {v : Fin m → Pt m} {r : Py Built} (ht : ReturnsTiling S count v r)
    (hf : FindsNearest prec S d r) (hfold : FoldsEverySite prec S r) (hv : ∀ p c, ndist p (p + comb v c) ≠ d)
    {T : Set (Pt m)} (hT : Stagger S d v T) (hS : StepsConnect S d) :
    EverySpinRun (m := m) prec count r OrderedLevels := by
  obtain ⟨L0, h1, rfl, h3⟩ := ht
  refine ⟨L0, h1, fun near hnear order horder porder hporder calls J => ?_⟩
  obtain ⟨bs, ix, U, hD, hU, hH⟩ := spin_core hd0.ne' hz hc0 hc h1 h3 hf hfold hnear horder hporder calls J
  refine ⟨U, hU, fun hJ => ?_⟩
  have hherm := bondSum_hermitian (n := count) (ix := ix) (bs := bs) J
  rw [hH]
  rw [hD.pairSum_eq hv] at hherm ⊢
  obtain ⟨p, hh⟩ := hD.halves hT hS
  obtain ⟨E, u, hu, hlt, hlow⟩ := levels hJ hh hherm
  have hsec := fun a c => pairSum_sectors J (fun b hb => hh.ne hb) (a := a) (c := c)
  refine ⟨E, u, fun k hk => ?_, fun k hk y w hw0 hw hwe => ?_, hlt, hlow⟩
  swap
  · obtain ⟨w', h0', hs', he'⟩ := spin_reach (pairSum_ladder J _).1 hsec hk hw0 hwe hw
    exact (hu k hk).2.2.2.2.2 y w' h0' hs' he'
  obtain ⟨h0, hs, he, hp, huniq, hl⟩ := hu k hk
  obtain ⟨hz', hsq⟩ := spin_square hs hp
  refine ⟨h0, he, hz', hsq, fun y w hw0 hw hwe => ?_⟩
  obtain ⟨h4, h5⟩ := hl y w hw0 (sector_of_sz hw) hwe
  exact ⟨h4, h5, fun e => huniq w (sector_of_sz hw) (by rw [hwe, e])⟩

end runs

end Verif.LDB
