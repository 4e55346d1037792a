import Verif.Spec.LatticeSpin
import Verif.Proofs.LatticeBand
import Verif.Proofs.Heisenberg
import Verif.Proofs.SpinBounds
/-!
# Lemmas for C114: the Heisenberg model of a built-in lattice
-/

namespace Verif.LDB

open Verif.Latt Verif.Spec Matrix Demo

section algebra

variable {n : ℕ}

/-- a one-spin operator on the state with all spins up -/
theorem siteOp_up {i : ℕ} (hi : i < n) (A : Matrix (Fin 2) (Fin 2) ℂ) :
    siteOp n i A *ᵥ upState n = A 0 0 • upState n + A 1 0 • siteOp n i (spinHalf .m) *ᵥ upState n := by
  have hP : siteOp n i !![1, 0; 0, 0] *ᵥ upState n = upState n := by
    have h0 : (0 : ℕ) < 2 ^ n := by positivity
    have hup : upState n = Pi.single ⟨0, h0⟩ 1 := by
      funext a
      by_cases ha : a = ⟨0, h0⟩
      · subst ha; simp [upState]
      · rw [Pi.single_eq_of_ne ha]
        have : (a : ℕ) ≠ 0 := fun e => ha (Fin.ext e)
        simp [upState, this]
    have e : siteOp n i !![1, 0; 0, 0] = Matrix.diagonal fun a : Fin (2 ^ n) => if digit a i = 0 then (1 : ℂ) else 0 := by
      ext a b
      unfold siteOp
      simp only [Matrix.of_apply]
      by_cases hab : a = b
      · subst hab
        rw [if_pos fun _ _ _ => rfl, Matrix.diagonal_apply_eq]
        have : digit a i = 0 ∨ digit a i = 1 := by
          generalize digit (a : ℕ) i = x
          fin_cases x <;> simp
        rcases this with h | h <;> simp [h]
      · rw [Matrix.diagonal_apply_ne _ hab]
        split
        · rename_i h
          by_contra hne
          apply hab
          have hd : ∀ j < n, digit a j = digit b j := by
            intro j hj
            by_cases hji : j = i
            · subst hji
              generalize digit (a : ℕ) j = x at hne ⊢
              generalize digit (b : ℕ) j = y at hne ⊢
              fin_cases x <;> fin_cases y <;> simp_all
            · exact h j hj hji
          have h1 := siteOp_one n i hi
          have h2 := congrFun (congrFun h1 a) b
          unfold siteOp at h2
          simp only [Matrix.of_apply] at h2
          rw [if_pos h, hd i hi, Matrix.one_apply_eq] at h2
          by_contra hab
          rw [Matrix.one_apply_ne hab] at h2
          exact one_ne_zero h2
        · rfl
    rw [e, hup]
    funext a
    rw [Matrix.mulVec_diagonal]
    by_cases ha : a = ⟨0, h0⟩
    · subst ha
      simp [digit]
    · rw [Pi.single_eq_of_ne ha, mul_zero]
  have hA : A * !![1, 0; 0, 0] = A 0 0 • !![1, 0; 0, 0] + A 1 0 • (spinHalf .m * !![1, 0; 0, 0]) := by
    ext r c
    fin_cases r <;> fin_cases c <;> simp [spinHalf, Matrix.mul_apply, Fin.sum_univ_two]
  calc siteOp n i A *ᵥ upState n = siteOp n i A *ᵥ (siteOp n i !![1, 0; 0, 0] *ᵥ upState n) := by rw [hP]
    _ = A 0 0 • (siteOp n i !![1, 0; 0, 0] *ᵥ upState n) +
        A 1 0 • siteOp n i (spinHalf .m) *ᵥ (siteOp n i !![1, 0; 0, 0] *ᵥ upState n) := by
      rw [Matrix.mulVec_mulVec, siteOp_mul _ _ hi, hA, siteOp_add, siteOp_smul, siteOp_smul, ← siteOp_mul _ _ hi,
        Matrix.add_mulVec, Matrix.smul_mulVec, Matrix.smul_mulVec, Matrix.mulVec_mulVec]
    _ = _ := by rw [hP]

theorem spinDot_up {i j : ℕ} (hi : i < n) (hj : j < n) (hij : i ≠ j) :
    Spec.spinDot n i j *ᵥ upState n = (1 / 4 : ℂ) • upState n := by
  have h : ∀ o, (siteOp n i (spinHalf o) * siteOp n j (spinHalf o)) *ᵥ upState n =
      (spinHalf o 0 0 * spinHalf o 0 0) • upState n +
      (spinHalf o 0 0 * spinHalf o 1 0) • (siteOp n i (spinHalf .m) *ᵥ upState n) +
      (spinHalf o 0 0 * spinHalf o 1 0) • (siteOp n j (spinHalf .m) *ᵥ upState n) +
      (spinHalf o 1 0 * spinHalf o 1 0) • ((siteOp n j (spinHalf .m) * siteOp n i (spinHalf .m)) *ᵥ upState n) := by
    intro o
    rw [← Matrix.mulVec_mulVec, siteOp_up hj, Matrix.mulVec_add, Matrix.mulVec_smul, Matrix.mulVec_smul,
      Matrix.mulVec_mulVec, (siteOp_comm n i j hi hj hij _ _).eq, ← Matrix.mulVec_mulVec, siteOp_up hi,
      Matrix.mulVec_add, Matrix.mulVec_smul, Matrix.mulVec_smul, Matrix.mulVec_mulVec]
    module
  unfold Spec.spinDot
  rw [Matrix.add_mulVec, Matrix.add_mulVec, h, h, h]
  simp only [spinHalf, Matrix.of_apply, Matrix.cons_val', Matrix.cons_val_zero, Matrix.cons_val_one,
    Matrix.cons_val_fin_one]
  have hI : (Complex.I / 2 * (Complex.I / 2) : ℂ) = -(1 / 4) := by
    have := Complex.I_mul_I
    linear_combination this / 4
  rw [hI]
  module

theorem spinDot_down_first {i j : ℕ} (hi : i < n) (hj : j < n) (hij : i ≠ j) :
    Spec.spinDot n i j *ᵥ (siteOp n i (spinHalf .m) *ᵥ upState n) =
      (1 / 2 : ℂ) • siteOp n j (spinHalf .m) *ᵥ upState n - (1 / 4 : ℂ) • siteOp n i (spinHalf .m) *ᵥ upState n := by
  have hc : ∀ o, (siteOp n i (spinHalf o) * siteOp n j (spinHalf o)) *ᵥ (siteOp n i (spinHalf .m) *ᵥ upState n) =
      siteOp n i (spinHalf o * spinHalf .m) *ᵥ (siteOp n j (spinHalf o) *ᵥ upState n) := by
    intro o
    rw [Matrix.mulVec_mulVec, Matrix.mulVec_mulVec, Matrix.mul_assoc, (siteOp_comm n j i hj hi hij.symm _ _).eq,
      ← Matrix.mul_assoc, siteOp_mul _ _ hi]
  have hx : spinHalf .x * spinHalf .m = !![1 / 2, 0; 0, 0] := by
    ext r c; fin_cases r <;> fin_cases c <;> simp [spinHalf]
  have hy : spinHalf .y * spinHalf .m = !![-Complex.I / 2, 0; 0, 0] := by
    ext r c; fin_cases r <;> fin_cases c <;> simp [spinHalf]
  have hz : spinHalf .z * spinHalf .m = !![0, 0; -1 / 2, 0] := by
    ext r c; fin_cases r <;> fin_cases c <;> simp [spinHalf]
  have hsw : ∀ A B : Matrix (Fin 2) (Fin 2) ℂ, siteOp n i A *ᵥ (siteOp n j B *ᵥ upState n) =
      siteOp n j B *ᵥ (siteOp n i A *ᵥ upState n) := by
    intro A B
    rw [Matrix.mulVec_mulVec, (siteOp_comm n i j hi hj hij _ _).eq, Matrix.mulVec_mulVec]
  have h00 : ∀ c : ℂ, siteOp n i !![c, 0; 0, 0] *ᵥ upState n = c • upState n := by
    intro c
    rw [siteOp_up hi]
    simp
  have hzz : siteOp n i !![0, 0; -1 / 2, 0] *ᵥ upState n = (-1 / 2 : ℂ) • siteOp n i (spinHalf .m) *ᵥ upState n := by
    rw [siteOp_up hi]
    simp
  have hI : (-Complex.I / 2 * (Complex.I / 2) : ℂ) = 1 / 4 := by
    have := Complex.I_mul_I
    linear_combination -this / 4
  have hX : siteOp n i !![1 / 2, 0; 0, 0] *ᵥ (siteOp n j (spinHalf .x) *ᵥ upState n) =
      (1 / 4 : ℂ) • siteOp n j (spinHalf .m) *ᵥ upState n := by
    rw [hsw, h00, Matrix.mulVec_smul, siteOp_up hj (spinHalf .x), smul_add, smul_smul, smul_smul]
    simp only [spinHalf, Matrix.of_apply, Matrix.cons_val', Matrix.cons_val_zero, Matrix.cons_val_one,
      Matrix.cons_val_fin_one]
    module
  have hY : siteOp n i !![-Complex.I / 2, 0; 0, 0] *ᵥ (siteOp n j (spinHalf .y) *ᵥ upState n) =
      (1 / 4 : ℂ) • siteOp n j (spinHalf .m) *ᵥ upState n := by
    rw [hsw, h00, Matrix.mulVec_smul, siteOp_up hj (spinHalf .y), smul_add, smul_smul, smul_smul]
    simp only [spinHalf, Matrix.of_apply, Matrix.cons_val', Matrix.cons_val_zero, Matrix.cons_val_one,
      Matrix.cons_val_fin_one]
    rw [hI]
    module
  have hZ : siteOp n i !![0, 0; -1 / 2, 0] *ᵥ (siteOp n j (spinHalf .z) *ᵥ upState n) =
      (-1 / 4 : ℂ) • siteOp n i (spinHalf .m) *ᵥ upState n := by
    have : siteOp n j (spinHalf .z) *ᵥ upState n = (1 / 2 : ℂ) • upState n := by
      rw [siteOp_up hj (spinHalf .z)]
      simp only [spinHalf, Matrix.of_apply, Matrix.cons_val', Matrix.cons_val_zero, Matrix.cons_val_one,
        Matrix.cons_val_fin_one]
      module
    rw [this, Matrix.mulVec_smul, hzz]
    module
  unfold Spec.spinDot
  rw [Matrix.add_mulVec, Matrix.add_mulVec, hc, hc, hc, hx, hy, hz, hX, hY, hZ]
  module

theorem spinDot_down {i j k : ℕ} (hi : i < n) (hj : j < n) (hk : k < n) (hij : i ≠ j) :
    Spec.spinDot n i j *ᵥ (siteOp n k (spinHalf .m) *ᵥ upState n) =
      (1 / 4 : ℂ) • siteOp n k (spinHalf .m) *ᵥ upState n +
      ((if k = i then 1 / 2 else 0) : ℂ) •
        (siteOp n j (spinHalf .m) *ᵥ upState n - siteOp n i (spinHalf .m) *ᵥ upState n) +
      ((if k = j then 1 / 2 else 0) : ℂ) •
        (siteOp n i (spinHalf .m) *ᵥ upState n - siteOp n j (spinHalf .m) *ᵥ upState n) := by
  by_cases h1 : k = i
  · subst h1
    rw [if_pos rfl, if_neg hij, spinDot_down_first hi hj hij]
    module
  · by_cases h2 : k = j
    · subst h2
      rw [if_neg (Ne.symm hij), if_pos rfl, spinDot_comm hi hj, spinDot_down_first hj hi hij.symm]
      module
    · rw [if_neg h1, if_neg h2, zero_smul, zero_smul, add_zero, add_zero]
      have hc : ∀ o, siteOp n i (spinHalf o) * siteOp n j (spinHalf o) * siteOp n k (spinHalf .m) =
          siteOp n k (spinHalf .m) * (siteOp n i (spinHalf o) * siteOp n j (spinHalf o)) := by
        intro o
        exact ((siteOp_comm n i k hi hk (Ne.symm h1) _ _).mul_left (siteOp_comm n j k hj hk (Ne.symm h2) _ _)).eq
      have hcc : Spec.spinDot n i j * siteOp n k (spinHalf .m) = siteOp n k (spinHalf .m) * Spec.spinDot n i j := by
        unfold Spec.spinDot
        rw [Matrix.add_mul, Matrix.add_mul, hc, hc, hc, Matrix.mul_add, Matrix.mul_add]
      rw [Matrix.mulVec_mulVec, hcc, ← Matrix.mulVec_mulVec, spinDot_up hi hj hij, Matrix.mulVec_smul]

/-- A bond from a site to its own image. -/
theorem bondTerm_self {i : ℕ} (hi : i < n) (J : ℝ) :
    bondTerm n J i i + (bondTerm n J i i)ᴴ = (J : ℂ) • (Spec.spinDot n i i + siteOp n i (spinHalf .z)) := by
  have hs : star ((J : ℂ) / 2) = (J : ℂ) / 2 := by
    rw [Complex.star_def, map_div₀, Complex.conj_ofReal, map_ofNat]
  unfold bondTerm Spec.spinDot
  rw [siteOp_mul _ _ hi, siteOp_mul _ _ hi, siteOp_mul _ _ hi, siteOp_mul _ _ hi, ← siteOp_smul, ← siteOp_smul,
    ← siteOp_add, ← siteOp_add, ← siteOp_add, ← siteOp_add, ← siteOp_smul, siteOp_conjTranspose, ← siteOp_add]
  congr 1
  have hI : Complex.I * Complex.I = -1 := Complex.I_mul_I
  ext r c
  fin_cases r <;> fin_cases c <;> simp [spinHalf, Matrix.conjTranspose_apply] <;>
    first | ring1 | linear_combination (J / 4 : ℂ) * hI

end algebra

section sums

open Classical

variable {n m : ℕ}

theorem sum_list_ite {α : Type*} (bs : List α) (p : α → Fin n) (g : Fin n → α → ℂ) :
    ∑ k, (bs.map fun b => if p b = k then g k b else 0).sum = (bs.map fun b => g (p b) b).sum := by
  induction bs with
  | nil => simp
  | cons b bs ih =>
    simp only [List.map_cons, List.sum_cons, Finset.sum_add_distrib]
    rw [ih]
    simp

theorem list_sum_add {α : Type*} (bs : List α) (f g : α → ℂ) :
    (bs.map fun b => f b + g b).sum = (bs.map f).sum + (bs.map g).sum := List.sum_map_add

/-- The hypotheses collected from a run: the bonds and the map to the cluster. -/
structure RunData (S : Set (Pt m)) (d : ℝ) (points : Fin n → Pt m) (v : Fin m → Pt m) (z : ℕ)
    (bs : List (Pt m × Pt m)) (ix : Pt m → Fin n) : Prop where
  tiling : ExactTiling S points v
  image : ∀ j c, ix (points j + comb v c) = j
  bond : ∀ b ∈ bs, b.1 ∈ S ∧ b.2 ∈ S ∧ ndist b.1 b.2 = d ∧ b.1 = points (ix b.1)
  degree : ∀ i : Fin n, ∀ f : Pt m → ℂ, Periodic v f →
    (bs.map fun b => if b.1 = points i then f b.2 else 0).sum +
      (bs.map fun b => if points (ix b.2) = points i then f b.1 else 0).sum =
      ∑ᶠ x ∈ {x | x ∈ S ∧ ndist (points i) x = d}, f x
  coord : Coordination S d z
  zpos : 0 < z

variable {S : Set (Pt m)} {d : ℝ} {points : Fin n → Pt m} {v : Fin m → Pt m} {z : ℕ} {bs : List (Pt m × Pt m)}
  {ix : Pt m → Fin n}

theorem RunData.site (h : RunData S d points v z bs ix) (i : Fin n) : points i ∈ S := by
  have := h.tiling.inside i 0
  rwa [comb_zero, add_zero] at this

theorem RunData.finite (h : RunData S d points v z bs ix) (i : Fin n) :
    {x | x ∈ S ∧ ndist (points i) x = d}.Finite := by
  refine Set.finite_of_ncard_ne_zero ?_
  rw [h.coord _ (h.site i)]
  exact h.zpos.ne'

theorem RunData.image' (h : RunData S d points v z bs ix) (j : Fin n) : ix (points j) = j := by
  have := h.image j 0
  rwa [comb_zero, add_zero] at this

theorem RunData.back (h : RunData S d points v z bs ix) {s : Pt m} (hs : s ∈ S) :
    ∃ c, s = points (ix s) + comb v c := by
  obtain ⟨q, hq, -⟩ := h.tiling.covers s hs
  refine ⟨q.2, ?_⟩
  have : ix s = q.1 := by rw [hq]; exact h.image _ _
  rw [this]; exact hq

/-- A sum over the bonds, both ways, as a sum over the neighbours. -/
theorem RunData.pairs (h : RunData S d points v z bs ix) (G : Fin n → Fin n → ℂ) :
    (bs.map fun b => G (ix b.1) (ix b.2) + G (ix b.2) (ix b.1)).sum =
      ∑ k, ∑ᶠ x ∈ {x | x ∈ S ∧ ndist (points k) x = d}, G k (ix x) := by
  have hinj := tiling_points_inj h.tiling
  have hk : ∀ k, ∑ᶠ x ∈ {x | x ∈ S ∧ ndist (points k) x = d}, G k (ix x) =
      (bs.map fun b => if ix b.1 = k then G k (ix b.2) else 0).sum +
      (bs.map fun b => if ix b.2 = k then G k (ix b.1) else 0).sum := by
    intro k
    have hp : Periodic v (fun x => if x ∈ S then G k (ix x) else 0) := by
      intro p c
      have hS : p + comb v c ∈ S ↔ p ∈ S := by
        constructor
        · intro hh
          obtain ⟨q, hq, -⟩ := h.tiling.covers _ hh
          have : p = points q.1 + comb v (q.2 + -c) := by
            rw [comb_add, comb_neg, ← add_assoc, ← hq]; abel
          rw [this]
          exact h.tiling.inside _ _
        · intro hh
          obtain ⟨q, hq, -⟩ := h.tiling.covers _ hh
          have : p + comb v c = points q.1 + comb v (q.2 + c) := by
            rw [comb_add, ← add_assoc, ← hq]
          rw [this]
          exact h.tiling.inside _ _
      dsimp only
      by_cases hp : p ∈ S
      · rw [if_pos (hS.2 hp), if_pos hp]
        obtain ⟨q, hq, -⟩ := h.tiling.covers _ hp
        rw [hq, h.image, add_assoc, ← comb_add, h.image]
      · rw [if_neg fun hh => hp (hS.1 hh), if_neg hp]
    have := h.degree k _ hp
    have hcg : ∑ᶠ x ∈ {x | x ∈ S ∧ ndist (points k) x = d}, G k (ix x) =
        ∑ᶠ x ∈ {x | x ∈ S ∧ ndist (points k) x = d}, if x ∈ S then G k (ix x) else 0 :=
      finsum_mem_congr rfl fun x hx => (if_pos (Set.mem_ofPred_eq ▸ hx : x ∈ S ∧ _).1).symm
    rw [hcg]
    rw [← this]
    congr 2
    · refine List.map_congr_left fun b hb => ?_
      obtain ⟨h1, h2, -, h4⟩ := h.bond b hb
      have e : (b.1 = points k) = (ix b.1 = k) := by
        rw [h4]; exact propext (by rw [h.image', hinj.eq_iff])
      simp only [if_pos h2, e]
    · refine List.map_congr_left fun b hb => ?_
      obtain ⟨h1, h2, -, h4⟩ := h.bond b hb
      have e : (points (ix b.2) = points k) = (ix b.2 = k) := propext hinj.eq_iff
      simp only [if_pos h1, e]
  rw [Finset.sum_congr rfl fun k _ => hk k, Finset.sum_add_distrib,
    sum_list_ite bs (fun b => ix b.1) (fun k b => G k (ix b.2)),
    sum_list_ite bs (fun b => ix b.2) (fun k b => G k (ix b.1)), list_sum_add]

theorem RunData.pairs_symm (h : RunData S d points v z bs ix) (G : Fin n → Fin n → ℂ) (hG : ∀ i j, G i j = G j i) :
    (bs.map fun b => G (ix b.1) (ix b.2)).sum =
      1 / 2 * ∑ k, ∑ᶠ x ∈ {x | x ∈ S ∧ ndist (points k) x = d}, G k (ix x) := by
  rw [← h.pairs G, list_sum_add]
  simp only [hG (ix _) (ix (Prod.fst _))]
  ring

/-- Complex sums over neighbours, as finite sums. -/
theorem RunData.finsum_eq (h : RunData S d points v z bs ix) {E : Type*} [AddCommMonoid E] (i : Fin n) (f : Pt m → E) :
    ∑ᶠ x ∈ {x | x ∈ S ∧ ndist (points i) x = d}, f x = ∑ x ∈ (h.finite i).toFinset, f x :=
  finsum_mem_eq_finite_toFinset_sum f (h.finite i)

theorem RunData.card (h : RunData S d points v z bs ix) (i : Fin n) : (h.finite i).toFinset.card = z := by
  rw [← Set.ncard_eq_toFinset_card _ (h.finite i)]
  exact h.coord _ (h.site i)

theorem RunData.mem (h : RunData S d points v z bs ix) (i : Fin n) {x : Pt m} :
    x ∈ (h.finite i).toFinset ↔ x ∈ S ∧ ndist (points i) x = d := by
  rw [Set.Finite.mem_toFinset]; rfl

theorem RunData.fibre (h : RunData S d points v z bs ix) {E : Type*} [AddCommMonoid E] {x : Pt m} (hx : x ∈ S)
    (F : Fin n → E) : ∑ j : Fin n with ∃ c, x = points j + comb v c, F j = F (ix x) := by
  have : (Finset.univ.filter fun j : Fin n => ∃ c, x = points j + comb v c) = {ix x} := by
    ext j
    rw [Finset.mem_filter, Finset.mem_singleton]
    constructor
    · rintro ⟨-, c, rfl⟩
      exact (h.image j c).symm
    · rintro rfl
      exact ⟨Finset.mem_univ _, h.back hx⟩
  rw [this, Finset.sum_singleton]

/-- What the bonds add up to. -/
noncomputable def bondSum (n : ℕ) (J : ℝ) (ix : Pt m → Fin n) (bs : List (Pt m × Pt m)) :
    Matrix (Fin (2 ^ n)) (Fin (2 ^ n)) ℂ :=
  (bs.map fun b => bondTerm n J (ix b.1) (ix b.2) + (bondTerm n J (ix b.1) (ix b.2))ᴴ).sum

/-- What the pair `i, j` adds to the Hamiltonian. -/
noncomputable def pairTerm (n : ℕ) (i j : Fin n) : Matrix (Fin (2 ^ n)) (Fin (2 ^ n)) ℂ :=
  Spec.spinDot n i j + if i = j then siteOp n i (spinHalf .z) else 0

theorem pairTerm_comm (i j : Fin n) : pairTerm n i j = pairTerm n j i := by
  unfold pairTerm
  rw [spinDot_comm i.2 j.2]
  by_cases h : i = j
  · subst h; rfl
  · rw [if_neg h, if_neg (Ne.symm h)]

theorem bondTerm_pair (J : ℝ) (i j : Fin n) :
    bondTerm n J i j + (bondTerm n J i j)ᴴ = (J : ℂ) • pairTerm n i j := by
  unfold pairTerm
  by_cases h : i = j
  · subst h
    rw [if_pos rfl, bondTerm_self i.2]
  · rw [if_neg h, add_zero, bondTerm_adj i.2 j.2 (fun e => h (Fin.ext e))]

theorem list_sum_apply {α : Type*} {N : ℕ} (l : List α) (F : α → Matrix (Fin N) (Fin N) ℂ) (r c : Fin N) :
    (l.map F).sum r c = (l.map fun x => F x r c).sum := by
  induction l with
  | nil => rfl
  | cons a l ih => rw [List.map_cons, List.sum_cons, List.map_cons, List.sum_cons, Matrix.add_apply, ih]

theorem list_sum_mulVec {α : Type*} {N : ℕ} (l : List α) (F : α → Matrix (Fin N) (Fin N) ℂ) (w : Fin N → ℂ) :
    (l.map F).sum *ᵥ w = (l.map fun x => F x *ᵥ w).sum := by
  induction l with
  | nil => simp
  | cons a l ih => rw [List.map_cons, List.sum_cons, List.map_cons, List.sum_cons, Matrix.add_mulVec, ih]

/-- The Hamiltonian as a sum over neighbours. -/
theorem RunData.hamiltonian (h : RunData S d points v z bs ix) (J : ℝ) :
    bondSum n J ix bs = latticeHeisenberg S d points v J +
      ((J / 2 : ℝ) : ℂ) • ∑ i : Fin n, (ownNeighbours S d v (points i) : ℂ) • siteOp n i (spinHalf .z) := by
  have h1 : bondSum n J ix bs = ((J / 2 : ℝ) : ℂ) • ∑ i : Fin n, ∑ x ∈ (h.finite i).toFinset, pairTerm n i (ix x) := by
    ext r c
    unfold bondSum
    rw [list_sum_apply]
    have : (bs.map fun b => (bondTerm n J (ix b.1) (ix b.2) + (bondTerm n J (ix b.1) (ix b.2))ᴴ) r c).sum =
        (bs.map fun b => (J : ℂ) * pairTerm n (ix b.1) (ix b.2) r c).sum := by
      congr 1
      refine List.map_congr_left fun b _ => ?_
      rw [bondTerm_pair]; rfl
    rw [this, h.pairs_symm (fun i j => (J : ℂ) * pairTerm n i j r c) (fun i j => by rw [pairTerm_comm])]
    simp only [h.finsum_eq, Matrix.smul_apply, Matrix.sum_apply, smul_eq_mul, ← Finset.mul_sum]
    push_cast
    ring
  rw [h1]
  unfold latticeHeisenberg
  rw [← smul_add, ← Finset.sum_add_distrib]
  congr 1
  refine Finset.sum_congr rfl fun i _ => ?_
  rw [h.finsum_eq]
  have h2 : ∑ x ∈ (h.finite i).toFinset, ∑ j : Fin n with ∃ c, x = points j + comb v c, Spec.spinDot n i j =
      ∑ x ∈ (h.finite i).toFinset, Spec.spinDot n i (ix x) :=
    Finset.sum_congr rfl fun x hx => h.fibre ((h.mem i).1 hx).1 fun j : Fin n => Spec.spinDot n i j
  rw [h2]
  unfold pairTerm
  rw [Finset.sum_add_distrib]
  congr 1
  rw [← Finset.sum_filter, Finset.sum_const]
  have h3 : ((h.finite i).toFinset.filter fun x => i = ix x).card = ownNeighbours S d v (points i) := by
    unfold ownNeighbours
    rw [← Set.ncard_coe_finset]
    congr 1
    ext x
    rw [Finset.mem_coe, Finset.mem_filter, h.mem, Set.mem_ofPred_eq]
    refine and_congr_right fun hx => ⟨fun e => ?_, fun ⟨c, hc⟩ => ?_⟩
    · obtain ⟨c, hc⟩ := h.back hx.1
      exact ⟨c, by rw [← e] at hc; exact hc⟩
    · rw [hc, h.image]
  rw [h3, Nat.cast_smul_eq_nsmul]

end sums

section run

open Classical

variable {n m prec : ℕ}

/-- The loop over the bonds. -/
theorem exchangeLoop_pts (hn : 1 ≤ n) {near : (Fin n → Pt m) → Pt m → Option (Fin n)} {L : Lat n m m}
    {ix : Pt m → Fin n} (J : ℂ) (bs : List (LBond m))
    (hidx : ∀ b ∈ bs, getIndexFold near prec L b.1 = some (.ok (ix b.1)) ∧
      getIndexFold near prec L b.2 = some (.ok (ix b.2))) :
    ∃ Ms, exchangeLoop near prec L n J bs = some (.ok Ms) ∧ (bs ≠ [] → Ms ≠ []) ∧
      (Ms.map fun M => M.toMatrix (2 ^ n)).sum = (bs.map fun b => bondTerm n J (ix b.1) (ix b.2)).sum := by
  induction bs with
  | nil => exact ⟨[], rfl, fun h => absurd rfl h, rfl⟩
  | cons b rest ih =>
    obtain ⟨Ms, h1, -, h3⟩ := ih fun b hb => hidx b (List.mem_cons_of_mem _ hb)
    obtain ⟨hz, hw⟩ := hidx b List.mem_cons_self
    have key : ∀ o o' : SpinOtype, ∃ M, SpinInteraction.matrixFunction
        [(((ix b.1 : ℕ) : ℤ), o), (((ix b.2 : ℕ) : ℤ), o')] n (J / 2) = .ok M ∧
        M.toMatrix (2 ^ n) = (J / 2) • (siteOp n (ix b.1) (spinHalf o) * siteOp n (ix b.2) (spinHalf o')) := by
      intro o o'
      have r1 := (ix b.1).2
      have r2 := (ix b.2).2
      obtain ⟨M, hM, -, h2⟩ := (C31_interaction_matrix [(((ix b.1 : ℕ) : ℤ), o), (((ix b.2 : ℕ) : ℤ), o')] n (J / 2)).1
        (by omega) (by
          intro p hp
          simp only [List.mem_cons, List.not_mem_nil, or_false] at hp
          rcases hp with rfl | rfl <;> dsimp only <;> omega)
      refine ⟨M, hM, ?_⟩
      simp only [Int.toNat_natCast] at h2
      rw [h2]
      simp only [List.map_cons, List.map_nil, List.prod_cons, List.prod_nil, mul_one]
      rw [spinMat_eq (by omega), spinMat_eq (by omega)]
      simp only [Int.toNat_natCast]
    obtain ⟨A, hA, hA'⟩ := key .z .z
    obtain ⟨B, hB, hB'⟩ := key .p .m
    refine ⟨[A, B] ++ Ms, ?_, fun _ => by simp, ?_⟩
    · unfold exchangeLoop
      rw [hz, hw]
      dsimp only [andThen]
      rw [hA]
      simp only [bind, Except.bind]
      rw [hB]
      dsimp only [pure, Except.pure]
      rw [h1]
    · rw [List.map_append, List.sum_append, h3]
      simp only [List.map_cons, List.map_nil, List.sum_cons, List.sum_nil, add_zero]
      rw [hA', hB']
      rfl

theorem list_sum_adj {α : Type*} {N : ℕ} (l : List α) (F : α → Matrix (Fin N) (Fin N) ℂ) :
    (l.map F).sum + (l.map F).sumᴴ = (l.map fun x => F x + (F x)ᴴ).sum := by
  induction l with
  | nil => simp
  | cons a l ih =>
    rw [List.map_cons, List.sum_cons, List.map_cons, List.sum_cons, conjTranspose_add, ← ih]
    abel

/-- What a run computes. -/
theorem spin_core {S : Set (Pt m)} {d : ℝ} (hd0 : d ≠ 0) {z count : ℕ} (hz : 0 < z) (hc0 : 1 ≤ count)
    (hc : Coordination S d z) {r : Py Built} {L0 : Lat count m m} (hr : r = .ok ⟨count, m, m, L0⟩)
    (ht : ExactTiling S L0.points L0.vectors) (hf : FindsNearest prec S d r) (hfold : FoldsEverySite prec S r)
    {near : (Fin count → Pt m) → Pt m → Option (Fin count)} (hnear : IsNearest near)
    {order : List (Fin m → ℤ) → List (Fin m → ℤ)} (horder : ∀ l, (order l).Perm l)
    {porder : ∀ N : ℕ, List (Fin N × Fin N) → List (Fin N × Fin N)} (hporder : ∀ N l, (porder N l).Perm l)
    (calls : List Call) (J : ℝ) : ∃ bs ix U, RunData S d L0.points L0.vectors z bs ix ∧
      spinClusterSetup near order porder prec count (calls.foldl (after order porder prec) L0) J = some (.ok U) ∧
      U.HM = bondSum count J ix bs := by
  obtain ⟨n1, L1, e1, h1⟩ := hf
  rw [hr] at e1
  cases Except.ok.inj e1
  obtain ⟨n2, L2, e2, h2⟩ := hfold
  rw [hr] at e2
  cases Except.ok.inj e2
  obtain ⟨-, ⟨L', intra, inter, hb, hl⟩, -⟩ := h1 order horder porder hporder calls true
  obtain ⟨hp0, hv0⟩ := points_history (order := order) (porder := porder) (prec := prec) calls L0
  obtain ⟨-, -, -, -, -, -, -, -, -, -, hpts, hvec, -⟩ := C51_bonds_exact order horder porder hporder hb
  have hP : ¬ (fun x : ℝ => x = d) 0 := fun e => hd0 e.symm
  have hsite : ∀ i, L0.points i ∈ S := fun i => by
    have := ht.inside i 0
    rwa [comb_zero, add_zero] at this
  set ix : Pt m → Fin count := fun s => if h : ∃ q : Fin count × (Fin m → ℤ), s = L0.points q.1 + comb L0.vectors q.2
    then h.choose.1 else ⟨0, hc0⟩ with hix
  have hixv : ∀ j c, ix (L0.points j + comb L0.vectors c) = j := by
    intro j c
    have h : ∃ q : Fin count × (Fin m → ℤ), L0.points j + comb L0.vectors c = L0.points q.1 + comb L0.vectors q.2 :=
      ⟨(j, c), rfl⟩
    simp only [hix, dif_pos h]
    exact (tiling_inj' ht h.choose_spec).1.symm
  have hixp : ∀ j, ix (L0.points j) = j := fun j => by
    have := hixv j 0
    rwa [comb_zero, add_zero] at this
  have hidx : ∀ s ∈ S, getIndexFold near prec L' s = some (.ok (ix s)) := by
    intro s hs
    obtain ⟨q, ⟨hq1, -, hq3⟩, -⟩ := h2 s hs
    have h3 := hq3 near hnear
    rw [hq1, hixv, ← hq1]
    rw [← h3]
    unfold getIndexFold
    rw [decompose_congr (hpts.trans hp0) (hvec.trans hv0)]
    have hcong : ∀ s, getIndex near prec L' s = getIndex near prec L0 s := by
      intro s; unfold getIndex; rw [hpts, hp0]
    simp only [hcong]
  have hne : intra ++ inter ≠ [] := by
    intro h0
    have hnc := hc _ (hsite ⟨0, hc0⟩)
    have : ({x | x ∈ S ∧ ndist (L0.points ⟨0, hc0⟩) x = d} : Set (Pt m)).Nonempty := by
      rw [Set.nonempty_iff_ne_empty]
      intro h1
      rw [h1, Set.ncard_empty] at hnc
      omega
    obtain ⟨x, hx1, hx2⟩ := this
    obtain ⟨b, ⟨hb, -⟩, -⟩ := hl.each _ (hsite ⟨0, hc0⟩) _ hx1 hx2
    rw [h0] at hb
    simp at hb
  have hD : RunData S d L0.points L0.vectors z (intra ++ inter) ix := by
    refine ⟨ht, hixv, fun b hb => ?_, fun i f hf => ?_, hc, hz⟩
    · obtain ⟨⟨i, hi⟩, h2, h3⟩ := listed ht hl hb
      exact ⟨hi ▸ hsite i, h2, h3, by rw [hi, hixp]⟩
    · exact weighted_degree (fold := fun s => L0.points (ix s)) ht hl hP (fun j c => congrArg L0.points (hixv j c)) i hf
  obtain ⟨Ms, m1, m2, m3⟩ := exchangeLoop_pts hc0 (ix := ix) (J : ℂ) (intra ++ inter) fun b hb =>
    ⟨hidx _ (hD.bond b hb).1, hidx _ (hD.bond b hb).2.1⟩
  refine ⟨intra ++ inter, ix, ⟨⟨_, _, _, L'⟩, bondSum count J ix (intra ++ inter)⟩, hD, ?_, rfl⟩
  unfold spinClusterSetup
  rw [hb]
  dsimp only
  rw [m1]
  dsimp only [andThen]
  unfold exchangeMatrix
  rw [if_neg (m2 hne), m3]
  dsimp only [bind, Except.bind, pure, Except.pure]
  rw [list_sum_adj]
  rfl

theorem field_run {S : Set (Pt m)} {d : ℝ} (hd0 : d ≠ 0) {z count : ℕ} (hz : 0 < z) (hc0 : 1 ≤ count)
    (hc : Coordination S d z) {v : Fin m → Pt m} {r : Py Built} (ht : ReturnsTiling S count v r)
    (hf : FindsNearest prec S d r) (hfold : FoldsEverySite prec S r) :
    EverySpinRun prec count r (HeisenbergField S d) := by
  obtain ⟨L0, h1, -, h3⟩ := ht
  refine ⟨L0, h1, fun near hnear order horder porder hporder calls J => ?_⟩
  obtain ⟨bs, ix, U, hD, hU, hH⟩ := spin_core hd0 hz hc0 hc h1 h3 hf hfold hnear horder hporder calls J
  exact ⟨U, hU, by rw [hH]; exact hD.hamiltonian J⟩

end run

section model

open Classical

variable {n m : ℕ} {S : Set (Pt m)} {d : ℝ} {points : Fin n → Pt m} {v : Fin m → Pt m} {z : ℕ}
  {bs : List (Pt m × Pt m)} {ix : Pt m → Fin n}

/-- No point is the neighbour of its own image. -/
theorem RunData.apart (h : RunData S d points v z bs ix) (hv : ∀ p c, ndist p (p + comb v c) ≠ d) {b : Pt m × Pt m}
    (hb : b ∈ bs) : ix b.1 ≠ ix b.2 := by
  intro e
  obtain ⟨-, h2, h3, h4⟩ := h.bond b hb
  obtain ⟨c, hc⟩ := h.back h2
  rw [← e, ← h4] at hc
  rw [hc] at h3
  exact hv _ _ h3

theorem own_zero (hv : ∀ p c, ndist p (p + comb v c) ≠ d) (p : Pt m) : ownNeighbours S d v p = 0 := by
  unfold ownNeighbours
  have : {x | (x ∈ S ∧ ndist p x = d) ∧ ∃ c, x = p + comb v c} = ∅ := by
    ext x
    simp only [Set.mem_ofPred_eq, Set.mem_empty_iff_false, iff_false]
    rintro ⟨⟨-, h⟩, c, rfl⟩
    exact hv p c h
  rw [this, Set.ncard_empty]

theorem bondSum_apart (J : ℝ) (h : ∀ b ∈ bs, ix b.1 ≠ ix b.2) :
    bondSum n J ix bs = (bs.map fun b => (J : ℂ) • Spec.spinDot n (ix b.1) (ix b.2)).sum := by
  unfold bondSum
  congr 1
  refine List.map_congr_left fun b hb => ?_
  exact bondTerm_adj (ix b.1).2 (ix b.2).2 (fun e => h b hb (Fin.ext e)) J

theorem list_commute {N : ℕ} {X : Matrix (Fin N) (Fin N) ℂ} (l : List (Matrix (Fin N) (Fin N) ℂ))
    (h : ∀ M ∈ l, Commute M X) : Commute l.sum X := by
  induction l with
  | nil => exact Commute.zero_left X
  | cons a l ih =>
    rw [List.sum_cons]
    exact (h a List.mem_cons_self).add_left (ih fun M hM => h M (List.mem_cons_of_mem _ hM))

theorem list_hermitian {N : ℕ} (l : List (Matrix (Fin N) (Fin N) ℂ)) (h : ∀ M ∈ l, M.IsHermitian) :
    l.sum.IsHermitian := by
  induction l with
  | nil => exact Matrix.isHermitian_zero
  | cons a l ih =>
    rw [List.sum_cons]
    exact (h a List.mem_cons_self).add (ih fun M hM => h M (List.mem_cons_of_mem _ hM))

theorem bondSum_hermitian (J : ℝ) : (bondSum n J ix bs).IsHermitian := by
  unfold bondSum
  refine list_hermitian _ fun M hM => ?_
  obtain ⟨b, -, rfl⟩ := List.mem_map.1 hM
  unfold Matrix.IsHermitian
  rw [conjTranspose_add, conjTranspose_conjTranspose, add_comm]

theorem bondSum_su2 (J : ℝ) (h : ∀ b ∈ bs, ix b.1 ≠ ix b.2) {a : SpinOtype} (ha : a ∈ [SpinOtype.x, .y, .z]) :
    Commute (bondSum n J ix bs) (totalSpinOp n a) := by
  rw [bondSum_apart J h]
  refine list_commute _ fun M hM => ?_
  obtain ⟨b, -, rfl⟩ := List.mem_map.1 hM
  refine Commute.smul_left ?_ _
  have := heis_siteOp n a ha (ix b.1) (ix b.2) (ix b.1).2 (ix b.2).2
  rw [totalSpin_eq] at this
  exact this.symm

/-- Twice the number of bonds. -/
theorem RunData.length (h : RunData S d points v z bs ix) : 2 * (bs.length : ℂ) = z * n := by
  have := h.pairs fun _ _ => 1
  have e1 : (bs.map fun _ => (1 + 1 : ℂ)).sum = 2 * bs.length := by
    rw [List.map_const', List.sum_replicate]; simp; ring
  rw [e1] at this
  rw [this]
  simp only [h.finsum_eq, Finset.sum_const, h.card, nsmul_eq_mul, mul_one, Finset.card_univ, Fintype.card_fin]
  ring

theorem RunData.up (h : RunData S d points v z bs ix) (J : ℝ) (ha : ∀ b ∈ bs, ix b.1 ≠ ix b.2) :
    bondSum n J ix bs *ᵥ upState n = ((J * z * n / 8 : ℝ) : ℂ) • upState n := by
  rw [bondSum_apart J ha, list_sum_mulVec]
  have : (bs.map fun b => ((J : ℂ) • Spec.spinDot n (ix b.1) (ix b.2)) *ᵥ upState n) =
      bs.map fun _ => ((J / 4 : ℝ) : ℂ) • upState n := by
    refine List.map_congr_left fun b hb => ?_
    rw [Matrix.smul_mulVec, spinDot_up (ix b.1).2 (ix b.2).2 (fun e => ha b hb (Fin.ext e)), smul_smul]
    congr 1
    push_cast; ring
  rw [this, List.map_const', List.sum_replicate, ← Nat.cast_smul_eq_nsmul ℂ, smul_smul]
  congr 1
  have := h.length
  push_cast
  linear_combination (J / 8 : ℂ) * this

theorem list_sum_vec {α : Type*} {N : ℕ} (l : List α) (F : α → Fin N → ℂ) (r : Fin N) :
    (l.map F).sum r = (l.map fun x => F x r).sum := by
  induction l with
  | nil => rfl
  | cons a l ih => rw [List.map_cons, List.sum_cons, List.map_cons, List.sum_cons, Pi.add_apply, ih]

theorem spinDot_magnon {i j : Fin n} (hij : i ≠ j) (g : Fin n → ℂ) :
    Spec.spinDot n i j *ᵥ magnon g = (1 / 4 : ℂ) • magnon g +
      (1 / 2 : ℂ) • ((g j - g i) • siteOp n i (spinHalf .m) *ᵥ upState n +
        (g i - g j) • siteOp n j (spinHalf .m) *ᵥ upState n) := by
  have hij' : (i : ℕ) ≠ j := fun e => hij (Fin.ext e)
  unfold magnon
  rw [Matrix.mulVec_sum]
  have e : ∀ k : Fin n, Spec.spinDot n i j *ᵥ (g k • siteOp n k (spinHalf .m) *ᵥ upState n) =
      (1 / 4 : ℂ) • (g k • siteOp n k (spinHalf .m) *ᵥ upState n) +
      ((if k = i then g k / 2 else 0) : ℂ) •
        (siteOp n j (spinHalf .m) *ᵥ upState n - siteOp n i (spinHalf .m) *ᵥ upState n) +
      ((if k = j then g k / 2 else 0) : ℂ) •
        (siteOp n i (spinHalf .m) *ᵥ upState n - siteOp n j (spinHalf .m) *ᵥ upState n) := by
    intro k
    rw [Matrix.mulVec_smul, spinDot_down i.2 j.2 k.2 hij']
    simp only [Fin.val_inj]
    by_cases h1 : k = i
    · have h2 : k ≠ j := fun e => hij (h1.symm.trans e)
      simp only [if_pos h1, if_neg h2]
      module
    · by_cases h2 : k = j
      · simp only [if_neg h1, if_pos h2]
        module
      · simp only [if_neg h1, if_neg h2]
        module
  simp only [e, Finset.sum_add_distrib, ← Finset.sum_smul, ← Finset.smul_sum, Finset.sum_ite_eq', Finset.mem_univ, if_true]
  module

theorem RunData.magnon (h : RunData S d points v z bs ix) (J : ℝ) (ha : ∀ b ∈ bs, ix b.1 ≠ ix b.2) {f : Pt m → ℂ}
    (hf : Periodic v f) : bondSum n J ix bs *ᵥ LDB.magnon (fun i => f (points i)) =
      LDB.magnon fun i => ((J * z * n / 8 - J * z / 2 : ℝ) : ℂ) * f (points i) + hops S d (J / 2) f (points i) := by
  rw [bondSum_apart J ha, list_sum_mulVec]
  set g : Fin n → ℂ := fun i => f (points i) with hg
  have e1 : (bs.map fun b => ((J : ℂ) • Spec.spinDot n (ix b.1) (ix b.2)) *ᵥ LDB.magnon g) =
      bs.map fun b => (J / 4 : ℂ) • LDB.magnon g +
        (J / 2 : ℂ) • ((g (ix b.2) - g (ix b.1)) • siteOp n (ix b.1) (spinHalf .m) *ᵥ upState n +
        (g (ix b.1) - g (ix b.2)) • siteOp n (ix b.2) (spinHalf .m) *ᵥ upState n) := by
    refine List.map_congr_left fun b hb => ?_
    rw [Matrix.smul_mulVec, spinDot_magnon (ha b hb)]
    module
  rw [e1]
  funext r
  rw [list_sum_vec]
  simp only [Pi.add_apply, Pi.smul_apply, smul_eq_mul]
  rw [list_sum_add, List.sum_map_mul_left, List.sum_map_mul_left]
  rw [h.pairs fun i j => (g j - g i) * (siteOp n i (spinHalf .m) *ᵥ upState n) r]
  have e2 : ∀ k, ∑ᶠ x ∈ {x | x ∈ S ∧ ndist (points k) x = d}, (g (ix x) - g k) * (siteOp n k (spinHalf .m) *ᵥ upState n) r =
      (∑ᶠ x ∈ {x | x ∈ S ∧ ndist (points k) x = d}, f x - z * g k) * (siteOp n k (spinHalf .m) *ᵥ upState n) r := by
    intro k
    rw [h.finsum_eq, h.finsum_eq, ← Finset.sum_mul, Finset.sum_sub_distrib, Finset.sum_const, h.card, nsmul_eq_mul]
    congr 2
    refine Finset.sum_congr rfl fun x hx => ?_
    obtain ⟨c, hc⟩ := h.back ((h.mem k).1 hx).1
    rw [hg]
    dsimp only
    conv_rhs => rw [hc, hf]
  simp only [e2, List.map_const', List.sum_replicate]
  unfold LDB.magnon hops
  simp only [Finset.sum_apply, Pi.smul_apply, smul_eq_mul, nsmul_eq_mul, Finset.mul_sum]
  rw [← Finset.sum_add_distrib]
  refine Finset.sum_congr rfl fun k _ => ?_
  have hlen := h.length
  push_cast
  rw [hg]
  linear_combination (J / 8 * f (points k) * (siteOp n k (spinHalf .m) *ᵥ upState n) r : ℂ) * hlen

theorem RunData.lower (h : RunData S d points v z bs ix) {J : ℝ} (hJ : J ≤ 0) (ha : ∀ b ∈ bs, ix b.1 ≠ ix b.2)
    {ψ : Fin (2 ^ n) → ℂ} (hψ : ψ ≠ 0) : J * z * n / 8 ≤ (expectation (bondSum n J ix bs) ψ).re := by
  rw [bondSum_apart J ha]
  have hlen : 2 * (bs.length : ℝ) = z * n := by
    have := h.length
    exact_mod_cast this
  have key : ∀ l : List (Pt m × Pt m), (∀ b ∈ l, ix b.1 ≠ ix b.2) → J / 4 * l.length ≤
      (expectation (l.map fun b => (J : ℂ) • Spec.spinDot n (ix b.1) (ix b.2)).sum ψ).re := by
    intro l hl
    induction l with
    | nil => simp [expectation]
    | cons b l ih =>
      rw [List.map_cons, List.sum_cons, expectation_add, Complex.add_re, expectation_smul, Complex.re_ofReal_mul,
        List.length_cons]
      have h1 := ih fun b hb => hl b (List.mem_cons_of_mem _ hb)
      have h2 : (expectation (Spec.spinDot n (ix b.1) (ix b.2)) ψ).re ≤ 1 / 4 :=
        dotOp_le n (ix b.1) (ix b.2) (ix b.1).2 (ix b.2).2 (fun e => hl b List.mem_cons_self (Fin.ext e)) ψ hψ
      push_cast
      nlinarith
  have := key bs ha
  have e : J * z * n / 8 = J / 4 * bs.length := by linear_combination -(J / 8) * hlen
  rw [e]; exact this

end model

section finish

variable {n m prec : ℕ}

theorem raise_magnon (j : Fin n) (g : Fin n → ℂ) : siteOp n j (spinHalf .p) *ᵥ magnon g = g j • upState n := by
  unfold magnon
  rw [Matrix.mulVec_sum, Finset.sum_eq_single j]
  · rw [Matrix.mulVec_smul, Matrix.mulVec_mulVec, siteOp_mul _ _ j.2, siteOp_up j.2]
    simp [spinHalf]
  · intro k _ hk
    have hkj : (j : ℕ) ≠ k := fun e => hk (Fin.ext e.symm)
    rw [Matrix.mulVec_smul, Matrix.mulVec_mulVec, (siteOp_comm n j k j.2 k.2 hkj _ _).eq, ← Matrix.mulVec_mulVec,
      siteOp_up j.2]
    simp [spinHalf]
  · intro h; exact absurd (Finset.mem_univ j) h

theorem upState_ne : upState n ≠ 0 := by
  intro h
  have := congrFun h ⟨0, by positivity⟩
  simp [upState] at this

theorem magnon_ne {g : Fin n → ℂ} {j : Fin n} (hg : g j ≠ 0) : magnon g ≠ 0 := by
  intro h
  have := raise_magnon j g
  rw [h, Matrix.mulVec_zero] at this
  rcases smul_eq_zero.1 this.symm with h | h
  · exact hg h
  · exact upState_ne h

theorem magnon_smul (c : ℂ) (g : Fin n → ℂ) : magnon (fun i => c * g i) = c • magnon g := by
  unfold magnon
  rw [Finset.smul_sum]
  exact Finset.sum_congr rfl fun i _ => by rw [smul_smul]

theorem model_run {S : Set (Pt m)} {d : ℝ} (hd0 : d ≠ 0) {z count : ℕ} (hz : 0 < z) (hc0 : 1 ≤ count)
    (hc : Coordination S d z) {v : Fin m → Pt m} {r : Py Built} (ht : ReturnsTiling S count v r)
    (hf : FindsNearest prec S d r) (hfold : FoldsEverySite prec S r) (hv : ∀ p c, ndist p (p + comb v c) ≠ d) :
    EverySpinRun prec count r (HeisenbergFerromagnet S d z) := by
  obtain ⟨L0, h1, rfl, h3⟩ := ht
  refine ⟨L0, h1, fun near hnear order horder porder hporder calls J => ?_⟩
  obtain ⟨bs, ix, U, hD, hU, hH⟩ := spin_core hd0 hz hc0 hc h1 h3 hf hfold hnear horder hporder calls J
  have ha : ∀ b ∈ bs, ix b.1 ≠ ix b.2 := fun b hb => hD.apart hv hb
  refine ⟨U, hU, ?_⟩
  rw [hH]
  refine ⟨⟨?_, bondSum_hermitian J, fun a h => bondSum_su2 J ha h⟩, hD.up J ha, fun f hf => hD.magnon J ha hf,
    fun hJ ψ hψ => hD.lower hJ ha hψ⟩
  rw [hD.hamiltonian]
  simp only [own_zero hv, Nat.cast_zero, zero_smul, Finset.sum_const_zero, smul_zero, add_zero]

theorem steps_card {S : Set (Pt m)} {d : ℝ} {z : ℕ} (hc : Coordination S d z) {D : Finset (Pt m)}
    (hD : NeighbourVectors S d D) {s : Pt m} (hs : s ∈ S) : D.card = z := by
  classical
  rw [← hc s hs]
  have : {t | t ∈ S ∧ ndist s t = d} = ((D.image fun x => s + x : Finset (Pt m)) : Set (Pt m)) := by
    ext x
    simp only [Set.mem_ofPred_eq, hD s hs x, Finset.coe_image, Set.mem_image, Finset.mem_coe]
    exact ⟨fun ⟨y, h1, h2⟩ => ⟨y, h1, h2.symm⟩, fun ⟨y, h1, h2⟩ => ⟨y, h1, h2.symm⟩⟩
  rw [this, Set.ncard_coe_finset, Finset.card_image_of_injective _ fun x y e => add_left_cancel e]

theorem waves_run {S : Set (Pt m)} {d : ℝ} {z count : ℕ} (hc0 : 1 ≤ count)
    (hc : Coordination S d z) {v : Fin m → Pt m} {r : Py Built} (ht : ReturnsTiling S count v r)
    (hrun : EverySpinRun prec count r (HeisenbergFerromagnet S d z)) {D : Finset (Pt m)} (hD : NeighbourVectors S d D) :
    EverySpinRun prec count r (SpinWaves D) := by
  obtain ⟨L0, h1, -, h3⟩ := ht
  obtain ⟨L1, e1, h⟩ := hrun
  rw [h1] at e1
  cases Except.ok.inj e1
  have hsite : ∀ i, L0.points i ∈ S := fun i => by
    have := h3.inside i 0
    rwa [comb_zero, add_zero] at this
  have hcard := steps_card hc hD (hsite ⟨0, hc0⟩)
  refine ⟨L0, h1, fun near hnear order horder porder hporder calls J => ?_⟩
  obtain ⟨U, hU, -, -, hm, -⟩ := h near hnear order horder porder hporder calls J
  refine ⟨U, hU, fun q hq => ⟨magnon_ne (j := ⟨0, hc0⟩) (planeWave_ne_zero _ _), ?_⟩⟩
  rw [hm _ (periodic_planeWave hq), ← magnon_smul]
  congr 1
  funext i
  rw [hops_planeWave hD _ _ (hsite i), hcard, Finset.sum_sub_distrib, Finset.sum_const, hcard]
  unfold bandEnergy
  push_cast
  ring

theorem apart_of {d : ℝ} (hd : 0 ≤ d) {v : Fin m → Pt m} (h : ∀ c, ∑ a, comb v c a ^ 2 ≠ d ^ 2) (p : Pt m)
    (c : Fin m → ℤ) : ndist p (p + comb v c) ≠ d := by
  rw [Ne, ndist_eq_iff hd]
  intro e
  refine h c ?_
  rw [← e]
  refine Finset.sum_congr rfl fun a _ => ?_
  rw [Pi.add_apply]; ring

theorem big_square {c n : ℤ} (hn : 2 ≤ n) : c * n = 0 ∨ 4 ≤ (c * n) ^ 2 := by
  by_cases h : c = 0
  · left; rw [h, zero_mul]
  · right
    have : 1 ≤ c ^ 2 := by
      have := sq_nonneg c
      have : c ^ 2 ≠ 0 := pow_ne_zero 2 h
      omega
    have h2 : 4 ≤ n ^ 2 := by nlinarith
    rw [mul_pow]
    nlinarith

theorem apart_chain {n0 : ℤ} (h0 : 2 ≤ n0) : ∀ p c, ndist p (p + comb ![![(n0 : ℝ)]] c) ≠ 1 := by
  refine apart_of zero_le_one fun c e => ?_
  simp only [comb, Fin.sum_univ_one, Matrix.cons_val_fin_one, one_pow] at e
  have e : (c 0 * n0) ^ 2 = 1 := by exact_mod_cast e
  rcases big_square (c := c 0) h0 with h | h
  · rw [h] at e; omega
  · omega

theorem apart_square {n0 n1 : ℤ} (h0 : 2 ≤ n0) (h1 : 2 ≤ n1) :
    ∀ p c, ndist p (p + comb ![![(n0 : ℝ), 0], ![0, (n1 : ℝ)]] c) ≠ 1 := by
  refine apart_of zero_le_one fun c e => ?_
  simp only [comb, Fin.sum_univ_two, Matrix.cons_val_zero, Matrix.cons_val_one, Matrix.cons_val_fin_one, one_pow,
    mul_zero, add_zero, zero_add] at e
  have e : (c 0 * n0) ^ 2 + (c 1 * n1) ^ 2 = 1 := by exact_mod_cast e
  rcases big_square (c := c 0) h0 with h | h <;> rcases big_square (c := c 1) h1 with h' | h' <;>
    (try rw [h] at e) <;> (try rw [h'] at e) <;> nlinarith [sq_nonneg (c 0 * n0), sq_nonneg (c 1 * n1)]

theorem apart_cubic {n0 n1 n2 : ℤ} (h0 : 2 ≤ n0) (h1 : 2 ≤ n1) (h2 : 2 ≤ n2) :
    ∀ p c, ndist p (p + comb ![![(n0 : ℝ), 0, 0], ![0, (n1 : ℝ), 0], ![0, 0, (n2 : ℝ)]] c) ≠ 1 := by
  refine apart_of zero_le_one fun c e => ?_
  simp only [comb, Fin.sum_univ_three, Matrix.cons_val_zero, Matrix.cons_val_one, Matrix.cons_val_two,
    Matrix.head_cons, Matrix.tail_cons, Matrix.cons_val, one_pow, mul_zero, add_zero, zero_add] at e
  have e : (c 0 * n0) ^ 2 + (c 1 * n1) ^ 2 + (c 2 * n2) ^ 2 = 1 := by exact_mod_cast e
  have p0 := sq_nonneg (c 0 * n0)
  have p1 := sq_nonneg (c 1 * n1)
  have p2 := sq_nonneg (c 2 * n2)
  have z0 : c 0 * n0 = 0 := (big_square (c := c 0) h0).resolve_right (by omega)
  have z1 : c 1 * n1 = 0 := (big_square (c := c 1) h1).resolve_right (by omega)
  have z2 : c 2 * n2 = 0 := (big_square (c := c 2) h2).resolve_right (by omega)
  rw [z0, z1, z2] at e
  omega

theorem triangle_norm (n0 n1 : ℤ) (c : Fin 2 → ℤ) :
    ∑ a, comb ![![(n0 : ℝ), 0], ![(n1 : ℝ) / 2, n1 * (Real.sqrt 3 / 2)]] c a ^ 2 =
      (((c 0 * n0) ^ 2 + (c 0 * n0) * (c 1 * n1) + (c 1 * n1) ^ 2 : ℤ) : ℝ) := by
  have h3 : Real.sqrt 3 ^ 2 = 3 := Real.sq_sqrt (by norm_num)
  simp only [comb, Fin.sum_univ_two, Matrix.cons_val_zero, Matrix.cons_val_one, Matrix.cons_val_fin_one,
    mul_zero, zero_add]
  push_cast
  linear_combination (c 1 * n1 / 2 : ℝ) ^ 2 * h3

theorem apart_triangle {n0 n1 : ℤ} (h0 : 2 ≤ n0) (h1 : 2 ≤ n1) :
    ∀ p c, ndist p (p + comb ![![(n0 : ℝ), 0], ![(n1 : ℝ) / 2, n1 * (Real.sqrt 3 / 2)]] c) ≠ 1 := by
  refine apart_of zero_le_one fun c e => ?_
  rw [triangle_norm, one_pow] at e
  have e : (c 0 * n0) ^ 2 + (c 0 * n0) * (c 1 * n1) + (c 1 * n1) ^ 2 = 1 := by exact_mod_cast e
  rcases big_square (c := c 1) h1 with h' | h'
  · rw [h'] at e
    rcases big_square (c := c 0) h0 with h | h
    · rw [h] at e; omega
    · nlinarith
  · nlinarith [sq_nonneg (2 * (c 0 * n0) + c 1 * n1)]

theorem apart_third (n0 n1 : ℤ) :
    ∀ p c, ndist p (p + comb ![![(n0 : ℝ), 0], ![(n1 : ℝ) / 2, n1 * (Real.sqrt 3 / 2)]] c) ≠ 1 / Real.sqrt 3 := by
  refine apart_of (by positivity) fun c e => ?_
  rw [triangle_norm, div_pow, Real.sq_sqrt (by norm_num), one_pow] at e
  generalize (c 0 * n0) ^ 2 + (c 0 * n0) * (c 1 * n1) + (c 1 * n1) ^ 2 = N at e
  have : (3 * N : ℤ) = 1 := by
    have : (3 : ℝ) * N = 1 := by rw [e]; norm_num
    exact_mod_cast this
  omega

theorem apart_half (n0 n1 : ℤ) :
    ∀ p c, ndist p (p + comb ![![(n0 : ℝ), 0], ![(n1 : ℝ) / 2, n1 * (Real.sqrt 3 / 2)]] c) ≠ 1 / 2 := by
  refine apart_of (by positivity) fun c e => ?_
  rw [triangle_norm] at e
  generalize (c 0 * n0) ^ 2 + (c 0 * n0) * (c 1 * n1) + (c 1 * n1) ^ 2 = N at e
  have : (4 * N : ℤ) = 1 := by
    have : (4 : ℝ) * N = 1 := by rw [e]; norm_num
    exact_mod_cast this
  omega

theorem apart_cross : ∀ p c, ndist p (p + comb ![![(3 : ℝ), -2], ![3, 2]] c) ≠ 1 := by
  refine apart_of zero_le_one fun c e => ?_
  simp only [comb, Fin.sum_univ_two, Matrix.cons_val_zero, Matrix.cons_val_one, Matrix.cons_val_fin_one, one_pow] at e
  have e : (c 0 * 3 + c 1 * 3) ^ 2 + (c 0 * -2 + c 1 * 2) ^ 2 = 1 := by exact_mod_cast e
  have : 9 * (c 0 + c 1) ^ 2 + 4 * (c 1 - c 0) ^ 2 = 1 := by rw [← e]; ring
  have p0 := sq_nonneg (c 0 + c 1)
  have p1 := sq_nonneg (c 1 - c 0)
  omega

theorem apart_z : ∀ p c, ndist p (p + comb ![![(1 : ℝ), -3], ![3, 1]] c) ≠ 1 := by
  refine apart_of zero_le_one fun c e => ?_
  simp only [comb, Fin.sum_univ_two, Matrix.cons_val_zero, Matrix.cons_val_one, Matrix.cons_val_fin_one, one_pow] at e
  have e : (c 0 * 1 + c 1 * 3) ^ 2 + (c 0 * -3 + c 1 * 1) ^ 2 = 1 := by exact_mod_cast e
  have : 10 * (c 0 ^ 2 + c 1 ^ 2) = 1 := by rw [← e]; ring
  omega

theorem apart_s : ∀ p c, ndist p (p + comb ![![(3 : ℝ), -1], ![1, 3]] c) ≠ 1 := by
  refine apart_of zero_le_one fun c e => ?_
  simp only [comb, Fin.sum_univ_two, Matrix.cons_val_zero, Matrix.cons_val_one, Matrix.cons_val_fin_one, one_pow] at e
  have e : (c 0 * 3 + c 1 * 1) ^ 2 + (c 0 * -1 + c 1 * 3) ^ 2 = 1 := by exact_mod_cast e
  have : 10 * (c 0 ^ 2 + c 1 ^ 2) = 1 := by rw [← e]; ring
  omega

theorem apart_star : ∀ p c, ndist p (p + comb ![![(7 : ℝ) / 2, Real.sqrt 3 / 2], ![1, 2 * Real.sqrt 3]] c) ≠ 1 := by
  refine apart_of zero_le_one fun c e => ?_
  have h3 : Real.sqrt 3 ^ 2 = 3 := Real.sq_sqrt (by norm_num)
  simp only [comb, Fin.sum_univ_two, Matrix.cons_val_zero, Matrix.cons_val_one, Matrix.cons_val_fin_one, one_pow] at e
  have e' : (13 : ℝ) * ((c 0) ^ 2 + (c 0) * (c 1) + (c 1) ^ 2) = 1 := by
    rw [← e]
    linear_combination -((c 0 : ℝ) / 2 + 2 * c 1) ^ 2 * h3
  have : 13 * (c 0 ^ 2 + c 0 * c 1 + c 1 ^ 2) = 1 := by exact_mod_cast e'
  omega

theorem apart_benzene : ∀ p c, ndist p (p + comb ![![(3 : ℝ) / 2, -Real.sqrt 3 / 2], ![3 / 2, Real.sqrt 3 / 2]] c) ≠
    1 / Real.sqrt 3 := by
  refine apart_of (by positivity) fun c e => ?_
  have h3 : Real.sqrt 3 ^ 2 = 3 := Real.sq_sqrt (by norm_num)
  rw [div_pow, h3, one_pow] at e
  simp only [comb, Fin.sum_univ_two, Matrix.cons_val_zero, Matrix.cons_val_one, Matrix.cons_val_fin_one] at e
  have e' : (9 : ℝ) * ((c 0) ^ 2 + (c 0) * (c 1) + (c 1) ^ 2) = 1 := by
    linear_combination 3 * e - 3 * ((c 1 : ℝ) / 2 - c 0 / 2) ^ 2 * h3
  have : 9 * (c 0 ^ 2 + c 0 * c 1 + c 1 ^ 2) = 1 := by exact_mod_cast e'
  omega

theorem apart_diphenyl : ∀ p c, ndist p (p + comb ![![(5 : ℝ) / 2, -Real.sqrt 3 / 2], ![5 / 2, Real.sqrt 3 / 2]] c) ≠
    1 / Real.sqrt 3 := by
  refine apart_of (by positivity) fun c e => ?_
  have h3 : Real.sqrt 3 ^ 2 = 3 := Real.sq_sqrt (by norm_num)
  rw [div_pow, h3, one_pow] at e
  simp only [comb, Fin.sum_univ_two, Matrix.cons_val_zero, Matrix.cons_val_one, Matrix.cons_val_fin_one] at e
  have e' : (3 : ℝ) * (7 * (c 0) ^ 2 + 11 * ((c 0) * (c 1)) + 7 * (c 1) ^ 2) = 1 := by
    linear_combination 3 * e - 3 * ((c 1 : ℝ) / 2 - c 0 / 2) ^ 2 * h3
  have : 3 * (7 * c 0 ^ 2 + 11 * (c 0 * c 1) + 7 * c 1 ^ 2) = 1 := by exact_mod_cast e'
  omega

theorem apart_gear : ∀ p c, ndist p (p + comb ![![(3 : ℝ), -Real.sqrt 3], ![3, Real.sqrt 3]] c) ≠
    1 / Real.sqrt 3 := by
  refine apart_of (by positivity) fun c e => ?_
  have h3 : Real.sqrt 3 ^ 2 = 3 := Real.sq_sqrt (by norm_num)
  rw [div_pow, h3, one_pow] at e
  simp only [comb, Fin.sum_univ_two, Matrix.cons_val_zero, Matrix.cons_val_one, Matrix.cons_val_fin_one] at e
  have e' : (9 : ℝ) * (3 * ((c 0) + (c 1)) ^ 2 + (c 1 - c 0) ^ 2) = 1 := by
    linear_combination 3 * e - 3 * ((c 1 : ℝ) - c 0) ^ 2 * h3
  have : 9 * (3 * (c 0 + c 1) ^ 2 + (c 1 - c 0) ^ 2) = 1 := by exact_mod_cast e'
  omega

/-- A field of any strength breaks the rotation symmetry. -/
theorem field_breaks {n : ℕ} (w : Fin n → ℂ)
    (h : Commute (∑ i : Fin n, w i • siteOp n i (spinHalf .z)) (totalSpinOp n .x)) (i : Fin n) : w i = 0 := by
  have e : ∀ i : Fin n, totalSpinOp n .x * siteOp n i (spinHalf .z) - siteOp n i (spinHalf .z) * totalSpinOp n .x =
      siteOp n i (spinHalf .x * spinHalf .z - spinHalf .z * spinHalf .x) := by
    intro i
    have := totalSpin_site (n : ℤ) .x i (by simpa using i.2) (spinHalf .z)
    rw [totalSpin_eq] at this
    exact this
  have h1 : magnon (fun i => w i / 2) = 0 := by
    have h2 : totalSpinOp n .x * (∑ i : Fin n, w i • siteOp n i (spinHalf .z)) -
        (∑ i : Fin n, w i • siteOp n i (spinHalf .z)) * totalSpinOp n .x = 0 := by rw [h.eq, sub_self]
    rw [Finset.mul_sum, Finset.sum_mul, ← Finset.sum_sub_distrib] at h2
    simp only [Matrix.mul_smul, Matrix.smul_mul, ← smul_sub, e] at h2
    have h3 := congrArg (fun M => M *ᵥ upState n) h2
    simp only [Matrix.zero_mulVec, Matrix.sum_mulVec, Matrix.smul_mulVec] at h3
    rw [← h3]
    unfold magnon
    refine Finset.sum_congr rfl fun j _ => ?_
    rw [siteOp_up j.2 (spinHalf .x * spinHalf .z - spinHalf .z * spinHalf .x)]
    have a0 : (spinHalf .x * spinHalf .z - spinHalf .z * spinHalf .x : Matrix (Fin 2) (Fin 2) ℂ) 0 0 = 0 := by
      simp [spinHalf]
    have a1 : (spinHalf .x * spinHalf .z - spinHalf .z * spinHalf .x : Matrix (Fin 2) (Fin 2) ℂ) 1 0 = 1 / 2 := by
      simp [spinHalf]; norm_num
    rw [a0, a1, zero_smul, zero_add, smul_smul]
    congr 1
    ring
  by_contra hw
  exact magnon_ne (g := fun i => w i / 2) (j := i) (div_ne_zero hw two_ne_zero) h1

/-- The sum over neighbours is symmetric. -/
theorem latticeHeisenberg_su2 {n m k : ℕ} (S : Set (Pt m)) (d : ℝ) (points : Fin n → Pt m) (v : Fin k → Pt m) (J : ℝ)
    {a : SpinOtype} (ha : a ∈ [SpinOtype.x, .y, .z]) : Commute (latticeHeisenberg S d points v J) (totalSpinOp n a) := by
  classical
  have hd : ∀ i j : Fin n, Commute (Spec.spinDot n i j) (totalSpinOp n a) := by
    intro i j
    have := heis_siteOp n a ha i j i.2 j.2
    rw [totalSpin_eq] at this
    exact this.symm
  unfold latticeHeisenberg
  refine Commute.smul_left (Commute.sum_left _ _ _ fun i _ => ?_) _
  refine finsum_induction (fun M => Commute M (totalSpinOp n a)) (Commute.zero_left _) (fun _ _ => Commute.add_left)
    fun x => ?_
  refine finsum_induction (fun M => Commute M (totalSpinOp n a)) (Commute.zero_left _) (fun _ _ => Commute.add_left)
    fun _ => Commute.sum_left _ _ _ fun j _ => hd i j

/-- The rotation symmetry is there exactly when no point is its own neighbour. -/
theorem symmetric_iff {S : Set (Pt m)} {d : ℝ} {count : ℕ} {r : Py Built}
    (hrun : EverySpinRun prec count r (HeisenbergField S d)) :
    EverySpinRun prec count r fun L J H => Commute H (totalSpinOp count .x) ↔
      J = 0 ∨ ∀ i, ownNeighbours S d L.vectors (L.points i) = 0 := by
  obtain ⟨L0, h1, h⟩ := hrun
  refine ⟨L0, h1, fun near hnear order horder porder hporder calls J => ?_⟩
  obtain ⟨U, hU, hF⟩ := h near hnear order horder porder hporder calls J
  refine ⟨U, hU, ?_⟩
  rw [hF]
  have hc := latticeHeisenberg_su2 S d L0.points L0.vectors J (a := .x) (by simp)
  constructor
  · intro hh
    have h2 := hh.sub_left hc
    rw [add_sub_cancel_left, Finset.smul_sum] at h2
    simp only [smul_smul] at h2
    by_cases hJ : J = 0
    · exact Or.inl hJ
    · right
      intro i
      have := field_breaks _ h2 i
      rcases mul_eq_zero.1 this with h3 | h3
      · exact absurd (by exact_mod_cast h3 : J / 2 = 0) (div_ne_zero hJ two_ne_zero)
      · exact_mod_cast h3
  · rintro (rfl | h0)
    · simpa using hc
    · simpa [h0] using hc

/-- A step along a translation of length `d` leads to an image of the same point. -/
theorem own_pos {S : Set (Pt m)} {d : ℝ} {z : ℕ} (hz : 0 < z) (hc : Coordination S d z) {n : ℕ} {points : Fin n → Pt m}
    {v : Fin m → Pt m} (ht : ExactTiling S points v) (i : Fin n) (c : Fin m → ℤ)
    (hd : ndist (points i) (points i + comb v c) = d) : ownNeighbours S d v (points i) ≠ 0 := by
  have hs : points i ∈ S := by
    have := ht.inside i 0
    rwa [comb_zero, add_zero] at this
  have hfin : {x | x ∈ S ∧ ndist (points i) x = d}.Finite := by
    refine Set.finite_of_ncard_ne_zero ?_
    rw [hc _ hs]; omega
  unfold ownNeighbours
  refine Set.ncard_ne_zero_of_mem (a := points i + comb v c) ⟨⟨ht.inside i c, hd⟩, c, rfl⟩
    (hfin.subset fun x hx => (Set.mem_ofPred_eq ▸ hx : (x ∈ S ∧ _) ∧ _).1)

/-- The symmetry and the size: `c` steps of the cluster's translations are a step to a neighbour, unless `P`. -/
theorem symmetric_run {S : Set (Pt m)} {d : ℝ} (hd : 0 ≤ d) {z : ℕ} (hz : 0 < z) {count : ℕ} (hc0 : 1 ≤ count)
    (hc : Coordination S d z) {v : Fin m → Pt m} {r : Py Built} (ht : ReturnsTiling S count v r)
    (hrun : EverySpinRun prec count r (HeisenbergField S d)) (P : Prop)
    (h1 : P → ∀ p c, ndist p (p + comb v c) ≠ d) (h2 : ¬ P → ∃ c, ∑ a, comb v c a ^ 2 = d ^ 2) :
    EverySpinRun (m := m) prec count r fun _ J H => Commute H (totalSpinOp count .x) ↔ J = 0 ∨ P := by
  obtain ⟨L0, e1, rfl, h3⟩ := ht
  obtain ⟨L1, e2, h⟩ := symmetric_iff hrun
  rw [e1] at e2
  cases Except.ok.inj e2
  refine ⟨L0, e1, fun near hnear order horder porder hporder calls J => ?_⟩
  obtain ⟨U, hU, hF⟩ := h near hnear order horder porder hporder calls J
  refine ⟨U, hU, hF.trans (or_congr_right ⟨fun h0 => ?_, fun hP i => own_zero (h1 hP) _⟩)⟩
  by_contra hP
  obtain ⟨c, hcc⟩ := h2 hP
  refine own_pos hz hc h3 ⟨0, hc0⟩ c ?_ (h0 _)
  rw [ndist_eq_iff hd, ← hcc]
  refine Finset.sum_congr rfl fun a _ => ?_
  simp only [Pi.add_apply]
  ring

/-- The chain of one site. -/
theorem self_chain {r : Py Built} (ht : ReturnsTiling chainSites 1 ![![((1 : ℤ) : ℝ)]] r)
    (hrun : EverySpinRun prec 1 r (HeisenbergField chainSites 1)) :
    EverySpinRun (m := 1) prec 1 r fun _ J H => H = ((3 * J / 4 : ℝ) : ℂ) • 1 + (J : ℂ) • siteOp 1 0 (spinHalf .z) := by
  classical
  obtain ⟨L0, e1, hv, h3⟩ := ht
  obtain ⟨L1, e2, h⟩ := hrun
  rw [e1] at e2
  cases Except.ok.inj e2
  refine ⟨L0, e1, fun near hnear order horder porder hporder calls J => ?_⟩
  obtain ⟨U, hU, hF⟩ := h near hnear order horder porder hporder calls J
  refine ⟨U, hU, ?_⟩
  rw [hF]
  have hs : L0.points 0 ∈ chainSites := by
    have := h3.inside 0 0
    rwa [comb_zero, add_zero] at this
  have hcard := coord_chain _ hs
  have hall : ∀ x ∈ chainSites, ∃ c, x = L0.points 0 + comb L0.vectors c := by
    intro x hx
    obtain ⟨⟨i, c⟩, hq, -⟩ := h3.covers x hx
    refine ⟨c, ?_⟩
    rw [hq, show i = 0 from Subsingleton.elim _ _]
  have hown : ownNeighbours chainSites 1 L0.vectors (L0.points 0) = 2 := by
    rw [← hcard]
    unfold ownNeighbours
    congr 1
    ext x
    simp only [Set.mem_ofPred_eq]
    exact ⟨fun h => h.1, fun h => ⟨h, hall x h.1⟩⟩
  have hdot : Spec.spinDot 1 0 0 = (3 / 4 : ℂ) • 1 := by
    unfold Spec.spinDot
    rw [siteOp_mul _ _ one_pos, siteOp_mul _ _ one_pos, siteOp_mul _ _ one_pos, ← siteOp_add, ← siteOp_add,
      ← siteOp_one 1 0 one_pos, ← siteOp_smul]
    congr 1
    ext i j
    fin_cases i <;> fin_cases j <;> simp [spinHalf, Matrix.mul_apply] <;> ring_nf <;> simp <;> norm_num
  have hfin : {x | x ∈ chainSites ∧ ndist (L0.points 0) x = 1}.Finite :=
    Set.finite_of_ncard_ne_zero (by rw [hcard]; norm_num)
  have hH : latticeHeisenberg chainSites 1 L0.points L0.vectors J = ((3 * J / 4 : ℝ) : ℂ) • 1 := by
    unfold latticeHeisenberg
    rw [Fin.sum_univ_one]
    have : ∀ x ∈ {x | x ∈ chainSites ∧ ndist (L0.points 0) x = 1},
        ∑ j : Fin 1 with ∃ c, x = L0.points j + comb L0.vectors c, Spec.spinDot 1 (0 : Fin 1) j = (3 / 4 : ℂ) • 1 := by
      intro x hx
      obtain ⟨c, hc⟩ := hall x (Set.mem_ofPred_eq ▸ hx : x ∈ chainSites ∧ _).1
      rw [Finset.sum_filter, Fin.sum_univ_one, if_pos ⟨c, hc⟩]
      exact hdot
    rw [finsum_mem_congr rfl this, finsum_mem_eq_finite_toFinset_sum _ hfin, Finset.sum_const,
      ← Set.ncard_eq_toFinset_card _ hfin, hcard, ← Nat.cast_smul_eq_nsmul ℂ, smul_smul, smul_smul]
    congr 1
    push_cast
    ring
  rw [hH, Fin.sum_univ_one, hown, smul_smul]
  congr 2
  push_cast
  ring

end finish

end Verif.LDB
