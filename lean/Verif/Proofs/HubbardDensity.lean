import Verif.Spec.HubbardDensity
import Verif.Proofs.Dimer
import Mathlib.GroupTheory.Perm.Support
/-!
Helper lemmas: averages in symmetric clusters (for C128).
-/

namespace Verif.LDB

open Verif.Latt Verif.Spec Demo Matrix

local notation "Op" => Module.End ℂ Fock

/-! ### Matrices -/

theorem same_averages {N : ℕ} {M A B X X' : Matrix (Fin N) (Fin N) ℂ} (hM : M.IsHermitian) (h1 : X * X' = 1)
    (h2 : X' * X = 1) (hc : X * M = M * X) (hA : X * A = B * X) : SameAverages M A B := by
  constructor
  · rintro v ⟨hv, E, hE, hs⟩
    have hXv : M.mulVec (X.mulVec v) = E • X.mulVec v := by
      rw [Matrix.mulVec_mulVec, ← hc, ← Matrix.mulVec_mulVec, hE, Matrix.mulVec_smul]
    have hXv' : M.mulVec (Xᴴ.mulVec v) = E • Xᴴ.mulVec v := by
      have : Xᴴ * M = M * Xᴴ := by
        have := congrArg Matrix.conjTranspose hc
        rw [Matrix.conjTranspose_mul, Matrix.conjTranspose_mul, hM.eq] at this
        exact this.symm
      rw [Matrix.mulVec_mulVec, ← this, ← Matrix.mulVec_mulVec, hE, Matrix.mulVec_smul]
    obtain ⟨z, hz⟩ := hs _ hXv
    obtain ⟨y, hy⟩ := hs _ hXv'
    have hz0 : z ≠ 0 := by
      rintro rfl
      rw [zero_smul] at hz
      have := congrArg X'.mulVec hz
      rw [Matrix.mulVec_mulVec, h2, Matrix.one_mulVec, Matrix.mulVec_zero] at this
      exact hv this
    have hvv : star v ⬝ᵥ v ≠ 0 := by
      rw [star_dot]
      exact_mod_cast (norm2_pos hv).ne'
    have row : star v ᵥ* X = star y • star v := by
      have := congrArg star hy
      rw [Matrix.star_mulVec, Matrix.conjTranspose_conjTranspose] at this
      rw [this]
      funext i
      simp
    have hzy : z = star y := by
      have e : star v ⬝ᵥ X.mulVec v = star v ᵥ* X ⬝ᵥ v := Matrix.dotProduct_mulVec _ _ _
      rw [hz, row, dotProduct_smul, smul_dotProduct] at e
      exact mul_right_cancel₀ hvv e
    have e : star v ⬝ᵥ (X * A).mulVec v = star v ⬝ᵥ (B * X).mulVec v := by rw [hA]
    rw [← Matrix.mulVec_mulVec, ← Matrix.mulVec_mulVec, Matrix.dotProduct_mulVec, row, hz, Matrix.mulVec_smul,
      dotProduct_smul, smul_dotProduct, ← hzy] at e
    unfold expectation
    rw [mul_left_cancel₀ hz0 e]
  · intro k
    have hk : X * M ^ k = M ^ k * X := (show Commute X M from hc).pow_right k
    have : M ^ k * B = X * (M ^ k * A) * X' := by
      rw [← Matrix.mul_assoc, hk, Matrix.mul_assoc (M ^ k), hA, ← Matrix.mul_assoc, Matrix.mul_assoc _ X, h1, Matrix.mul_one]
    rw [this, Matrix.trace_mul_comm (X * (M ^ k * A)) X', ← Matrix.mul_assoc, h2, Matrix.one_mul]

theorem SameAverages.of_sub {N : ℕ} {M A B : Matrix (Fin N) (Fin N) ℂ} (h : SameAverages M A (1 - B)) :
    SameAverages M (A + B) 1 := by
  constructor
  · intro v hv
    have := h.1 v hv
    unfold expectation at *
    rw [Matrix.sub_mulVec, dotProduct_sub, sub_div] at this
    rw [Matrix.add_mulVec, dotProduct_add, add_div, this]
    ring
  · intro k
    have := h.2 k
    rw [Matrix.mul_sub, Matrix.trace_sub] at this
    rw [Matrix.mul_add, Matrix.trace_add, this]
    ring

/-! ### From operators to matrices -/

variable {n m Nup Ndown : ℕ} {B : List ℕ} {d : ℝ} {points : Fin n → Pt m}

/-- A symmetry of the sector. -/
theorem averages_of {X X' H H' A A' : Op} (hB : B.Nodup) (h1 : X * X' = 1) (h2 : X' * X = 1)
    (mX : MapsTo X B B) (mX' : MapsTo X' B B) (mH : MapsTo H B B) (mA : MapsTo A B B)
    (hH : SemiconjBy X H H') (hH' : opMat B H' = opMat B H) (hA : SemiconjBy X A A')
    (hh : (opMat B H).IsHermitian) : SameAverages (opMat B H) (opMat B A) (opMat B A') := by
  have e1 : opMat B X * opMat B X' = 1 := (opMat2_mul hB mX').trans ((congrArg (opMat2 B B) h1).trans (opMat2_one hB))
  have e2 : opMat B X' * opMat B X = 1 := (opMat2_mul hB mX).trans ((congrArg (opMat2 B B) h2).trans (opMat2_one hB))
  refine same_averages hh e1 e2 ?_ ?_
  · rw [← hH']
    conv_lhs => rw [hH']
    exact (opMat2_mul hB mH).trans ((congrArg (opMat2 B B) hH.eq).trans (opMat2_mul hB mX).symm)
  · exact (opMat2_mul hB mA).trans ((congrArg (opMat2 B B) hA.eq).trans (opMat2_mul hB mX).symm)

theorem mapsTo_pair (p q : ℕ) : MapsTo (numberOp p * numberOp q) B B := by
  intro k hk U hU
  rw [pair_entry] at hU
  unfold pairInt at hU
  split_ifs at hU with h
  · exact ⟨k, hk, h.2.2.symm⟩
  · simp at hU

theorem occ_inj {a b : ℕ} (h : occ a = occ b) : a = b := by
  refine Nat.eq_of_testBit_eq fun i => ?_
  have := Finset.ext_iff.1 h i
  rw [mem_occ, mem_occ] at this
  exact Bool.eq_iff_iff.2 this

theorem pair_matrix (V : Setup) (hV : V.basis.Nodup) (p q : ℕ) :
    opMat V.basis (numberOp p * numberOp q) = bothOccupied V p q := by
  ext r c
  refine (pair_entry p q _ _).trans ?_
  unfold bothOccupied pairInt
  by_cases h : r = c
  · subst h
    rw [Matrix.diagonal_apply_eq]
    by_cases h' : p ∈ occ V.basis[r] ∧ q ∈ occ V.basis[r]
    · rw [if_pos ⟨h'.1, h'.2, rfl⟩, if_pos h']; norm_num
    · rw [if_neg (fun e => h' ⟨e.1, e.2.1⟩), if_neg h']; norm_num
  · rw [Matrix.diagonal_apply_ne _ h, if_neg]
    · norm_num
    · rintro ⟨-, -, e⟩
      refine h (Fin.ext ?_)
      exact ((List.Nodup.getElem_inj_iff hV).1 (occ_inj e)).symm

/-! ### Moving the particles -/

/-- The state with the point permuted. -/
def permMode (π : Equiv.Perm (Fin n)) (q : ℕ) : ℕ :=
  if h : q < n then π ⟨q, h⟩ else if h : q - n < n then n + π ⟨q - n, h⟩ else q

theorem permMode_low (π : Equiv.Perm (Fin n)) (i : Fin n) : permMode π (0 * n + i) = 0 * n + π i := by
  unfold permMode
  simp

theorem permMode_up (π : Equiv.Perm (Fin n)) (i : Fin n) : permMode π (1 * n + i) = 1 * n + π i := by
  unfold permMode
  rw [dif_neg (by omega), dif_pos (by have := i.2; omega)]
  simp

theorem permMode_spin (π : Equiv.Perm (Fin n)) {s : ℕ} (hs : s < 2) (i : Fin n) :
    permMode π (s * n + i) = s * n + π i := by
  interval_cases s
  · exact permMode_low π i
  · exact permMode_up π i

theorem permMode_high (π : Equiv.Perm (Fin n)) {q : ℕ} (hq : 2 * n ≤ q) : permMode π q = q := by
  unfold permMode
  split_ifs <;> omega

theorem mode_cases (n q : ℕ) : (∃ s, s < 2 ∧ ∃ i : Fin n, q = s * n + i) ∨ 2 * n ≤ q := by
  by_cases h : q < n
  · exact Or.inl ⟨0, by norm_num, ⟨q, h⟩, by simp⟩
  · by_cases h' : q < 2 * n
    · exact Or.inl ⟨1, by norm_num, ⟨q - n, by omega⟩, by simp; omega⟩
    · exact Or.inr (by omega)

section
variable {R : Type*} [Ring R] [Algebra ℂ R] {c a : ℕ → R}

/-- Two modes exchanged. -/
theorem Car.exchange (h : Car c a) {p q : ℕ} (hne : p ≠ q) : ∃ Y : R, Y * Y = 1 ∧
    ∀ x, SemiconjBy Y (c x) (c (Equiv.swap p q x)) ∧ SemiconjBy Y (a x) (a (Equiv.swap p q x)) := by
  obtain ⟨y1, y2, y3, y4, y5⟩ := ring_swap (h.self p) (h.self q) (h.ne hne.symm) (h.ne hne) (h.c_sq _)
    (h.c_sq _) (h.a_sq _) (h.a_sq _) (h.cc _ _) (h.aa _ _)
  refine ⟨_, y1, fun x => ?_⟩
  by_cases hp : x = p
  · subst hp
    rw [Equiv.swap_apply_left]
    exact ⟨y2, y4⟩
  by_cases hq : x = q
  · subst hq
    rw [Equiv.swap_apply_right]
    exact ⟨y3, y5⟩
  rw [Equiv.swap_apply_of_ne_of_ne hp hq]
  exact ⟨ring_swap_other (h.cc_neg _ _) (h.cc_neg _ _) (h.ac_neg (Ne.symm hp)) (h.ac_neg (Ne.symm hq)),
    ring_swap_other (h.ca_neg (Ne.symm hp)) (h.ca_neg (Ne.symm hq)) (h.aa_neg _ _) (h.aa_neg _ _)⟩

theorem permMode_swap (i j : Fin n) (f : Equiv.Perm (Fin n)) (q : ℕ) :
    permMode (Equiv.swap i j * f) q = Equiv.swap (n + i : ℕ) (n + j) (Equiv.swap (i : ℕ) j (permMode f q)) := by
  rcases mode_cases n q with ⟨s, hs, x, rfl⟩ | hq
  · rw [permMode_spin _ hs, permMode_spin _ hs, Equiv.Perm.mul_apply]
    have hi := i.2
    have hj := j.2
    have hy := (f x).2
    generalize f x = y at *
    interval_cases s
    · simp only [zero_mul, zero_add, Equiv.swap_apply_def, Fin.ext_iff]
      split_ifs <;> omega
    · simp only [one_mul, Equiv.swap_apply_def, Fin.ext_iff]
      split_ifs <;> omega
  · rw [permMode_high _ hq, permMode_high _ hq]
    have hi := i.2
    have hj := j.2
    simp only [Equiv.swap_apply_def]
    split_ifs <;> omega

theorem Car.exists_perm (h : Car c a) (π : Equiv.Perm (Fin n)) : ∃ W W' : R, Transforms c a W W'
    (fun q => c (permMode π q)) (fun q => a (permMode π q)) := by
  induction π using Equiv.Perm.swap_induction_on with
  | one =>
    have : ∀ q, permMode (1 : Equiv.Perm (Fin n)) q = q := fun q => by
      rcases mode_cases n q with ⟨s, hs, x, rfl⟩ | hq
      · rw [permMode_spin _ hs]; rfl
      · exact permMode_high _ hq
    exact ⟨1, 1, by simpa only [this] using transforms_one⟩
  | swap_mul f i j hij ih =>
    obtain ⟨W, W', ht⟩ := ih
    have n1 : (i : ℕ) ≠ j := fun e => hij (Fin.ext e)
    have n2 : n + (i : ℕ) ≠ n + j := fun e => n1 (by omega)
    obtain ⟨Y, y1, y2⟩ := h.exchange n1
    obtain ⟨Z, z1, z2⟩ := h.exchange n2
    refine ⟨_, _, (ht.cons y1 fun q => y2 _).cons z1 fun q => ?_⟩
    rw [permMode_swap]
    exact z2 _

end

/-- The permutation of the points as an operator. -/
theorem perm_operator (π : Equiv.Perm (Fin n))
    (hπ : ∀ i j, ndist (points (π i)) (points (π j)) = d ↔ ndist (points i) (points j) = d) (t U : ℝ) :
    ∃ W W' : Op, W * W' = 1 ∧ W' * W = 1 ∧ (∀ q, SemiconjBy W (numberOp q) (numberOp (permMode π q))) ∧
      SemiconjBy W (clusterHubbard d points t U) (clusterHubbard d points t U) := by
  classical
  obtain ⟨W, W', h1, h2, h3⟩ := carFock.exists_perm π
  have hb : ∀ p q, SemiconjBy W (create p * annihilate q) (create (permMode π p) * annihilate (permMode π q)) := fun p q =>
    SemiconjBy.mul_right (h3 p).1 (h3 q).2
  refine ⟨W, W', h1, h2, fun q => hb q q, ?_⟩
  have hpairs : SemiconjBy W (∑ i : Fin n, numberOp (n + i) * numberOp i) (∑ i : Fin n, numberOp (n + i) * numberOp i) := by
    have e : (∑ i : Fin n, numberOp (n + i) * numberOp i : Op) = ∑ i : Fin n, numberOp (n + π i) * numberOp (π i) :=
      (Equiv.sum_comp π fun i : Fin n => (numberOp (n + i) * numberOp i : Op)).symm
    conv => arg 3; rw [e]
    refine op_sum fun i _ => ?_
    have := SemiconjBy.mul_right (hb (1 * n + i) (1 * n + i)) (hb (0 * n + i) (0 * n + i))
    rw [permMode_up, permMode_low] at this
    simp only [one_mul, zero_mul, zero_add] at this
    exact this
  have hop : ∀ i j : Fin n, SemiconjBy W (hopPair n 2 i j) (hopPair n 2 (π i) (π j)) := fun i j => by
    unfold hopPair
    refine op_sum fun s hs => ?_
    have hs := Finset.mem_range.1 hs
    have := op_add (hb (s * n + i) (s * n + j)) (hb (s * n + j) (s * n + i))
    rwa [permMode_spin π hs, permMode_spin π hs] at this
  have hsym : ∀ i j, (hopPair n 2 i j : Op) = hopPair n 2 j i := fun i j => by
    unfold hopPair
    exact Finset.sum_congr rfl fun s _ => add_comm _ _
  have hhop : SemiconjBy W (∑ p : Fin n × Fin n with p.1 < p.2 ∧ ndist (points p.1) (points p.2) = d, hopPair n 2 p.1 p.2)
      (∑ p : Fin n × Fin n with p.1 < p.2 ∧ ndist (points p.1) (points p.2) = d, hopPair n 2 p.1 p.2) := by
    have hd : ∀ i j, ndist (points i) (points j) = ndist (points j) (points i) := fun i j => ndist_comm _ _
    have e : (∑ p : Fin n × Fin n with p.1 < p.2 ∧ ndist (points p.1) (points p.2) = d, hopPair n 2 p.1 p.2 : Op) =
        ∑ p : Fin n × Fin n with p.1 < p.2 ∧ ndist (points p.1) (points p.2) = d, hopPair n 2 (π p.1) (π p.2) := by
      symm
      refine Finset.sum_bij' (fun p _ => if π p.1 < π p.2 then (π p.1, π p.2) else (π p.2, π p.1))
        (fun p _ => if π.symm p.1 < π.symm p.2 then (π.symm p.1, π.symm p.2) else (π.symm p.2, π.symm p.1)) ?_ ?_ ?_ ?_ ?_
      · intro p hp
        simp only [Finset.mem_filter, Finset.mem_univ, true_and] at hp ⊢
        split_ifs with h
        · exact ⟨h, (hπ _ _).2 hp.2⟩
        · refine ⟨lt_of_le_of_ne (not_lt.1 h) fun e => hp.1.ne (π.injective e.symm), ?_⟩
          rw [hd]
          exact (hπ _ _).2 hp.2
      · intro p hp
        simp only [Finset.mem_filter, Finset.mem_univ, true_and] at hp ⊢
        have key : ndist (points (π.symm p.1)) (points (π.symm p.2)) = d := by
          rw [← hπ]; simpa using hp.2
        split_ifs with h
        · exact ⟨h, key⟩
        · refine ⟨lt_of_le_of_ne (not_lt.1 h) fun e => hp.1.ne (π.symm.injective e.symm), ?_⟩
          rw [hd]
          exact key
      · intro p hp
        simp only [Finset.mem_filter, Finset.mem_univ, true_and] at hp
        by_cases h : π p.1 < π p.2
        · simp [h, hp.1]
        · simp [h, not_lt.2 hp.1.le]
      · intro p hp
        simp only [Finset.mem_filter, Finset.mem_univ, true_and] at hp
        by_cases h : π.symm p.1 < π.symm p.2
        · simp [h, hp.1]
        · simp [h, not_lt.2 hp.1.le]
      · intro p hp
        by_cases h : π p.1 < π p.2
        · simp [h]
        · simp only [if_neg h]
          exact hsym _ _
    conv => arg 3; rw [e]
    exact op_sum fun p _ => hop _ _
  unfold clusterHubbard
  have := op_add (op_smul hpairs (U : ℂ)) (op_smul hhop (t : ℂ))
  convert this

theorem semiconj_inv {W W' x y : Op} (hr : W * W' = 1) (hl : W' * W = 1) (h : SemiconjBy W x y) : SemiconjBy W' y x := by
  change W' * y = x * W'
  rw [← mul_one (W' * y), ← hr, mul_assoc, ← mul_assoc y, ← h.eq, ← mul_assoc, ← mul_assoc, hl, one_mul]

theorem semiconj_apply {x y Z : Op} (h : SemiconjBy Z x y) (f : Fock) : y (Z f) = Z (x f) := by
  rw [← Module.End.mul_apply, ← Module.End.mul_apply, h.eq]

/-- A transformation of the modes stays in the sector if it transforms the particle numbers correctly. -/
theorem mapsTo_of (hB : SpinSector n Nup Ndown B) {W xu xd : Op} (hu : SemiconjBy W xu (spinNumber n 1))
    (hd : SemiconjBy W xd (spinNumber n 0)) (hq : ∀ q, 2 * n ≤ q → SemiconjBy W (numberOp q) (numberOp q))
    (ku : ∀ k ∈ B, xu (ket (occ k)) = (Nup : ℂ) • ket (occ k)) (kd : ∀ k ∈ B, xd (ket (occ k)) = (Ndown : ℂ) • ket (occ k)) :
    MapsTo W B B := by
  refine mapsTo_sector hB ?_ ?_ ?_
  · intro k hk q h
    rw [semiconj_apply (hq q h), sector_high hB hk h, map_zero]
  · intro k hk
    rw [semiconj_apply hu, ku k hk, map_smul]
  · intro k hk
    rw [semiconj_apply hd, kd k hk, map_smul]

section
variable {count : ℕ} {L : Lat count m m} {zoom : ℤ} {coordOf : ℝ → Coord} {run : ℝ → ℝ → ℕ → ℕ → Option (Py Setup)}

theorem pointSymmetric (h : HubbardModel d L zoom coordOf run) : PointSymmetric d L.points run := by
  intro t U a b ha hb
  obtain ⟨V, hV, -, hs, hm, hh⟩ := h t U a b ha hb
  refine ⟨V, hV, fun π hπ s hs2 s' hs2' i j => ?_⟩
  obtain ⟨W, W', h1, h2, h3, h4⟩ := perm_operator π hπ t U
  have hnum : ∀ s, s < 2 → SemiconjBy W (spinNumber count s) (spinNumber count s) := fun s hs => by
    have e : (spinNumber count s : Op) = ∑ i : Fin count, numberOp (s * count + π i) := by
      unfold spinNumber
      exact (Equiv.sum_comp π fun i : Fin count => (numberOp (s * count + i) : Op)).symm
    conv => arg 3; rw [e]
    refine op_number fun i => ?_
    have := h3 (s * count + i)
    rwa [permMode_spin π hs] at this
  have hhigh : ∀ q, 2 * count ≤ q → SemiconjBy W (numberOp q) (numberOp q) := fun q hq => by
    have := h3 q
    rwa [permMode_high π hq] at this
  rw [setup_matrix hm] at hh ⊢
  rw [← pair_matrix V hs.nodup, ← pair_matrix V hs.nodup]
  refine averages_of hs.nodup h1 h2
    (mapsTo_of hs (hnum 1 (by norm_num)) (hnum 0 (by norm_num)) hhigh (fun k hk => sector_up hs hk)
      fun k hk => sector_down hs hk)
    (mapsTo_of hs (semiconj_inv h1 h2 (hnum 1 (by norm_num))) (semiconj_inv h1 h2 (hnum 0 (by norm_num)))
      (fun q hq => semiconj_inv h1 h2 (hhigh q hq)) (fun k hk => sector_up hs hk) fun k hk => sector_down hs hk)
    (mapsTo_clusterHubbard hs d L.points t U) (mapsTo_pair _ _) h4 rfl ?_ hh
  have := SemiconjBy.mul_right (h3 (s * count + i)) (h3 (s' * count + j))
  rwa [permMode_spin π hs2, permMode_spin π hs2'] at this

/-- The two spins exchanged, as an operator. -/
theorem swap_operator (d : ℝ) (points : Fin n → Pt m) :
    ∃ W W' : Op, W * W' = 1 ∧ W' * W = 1 ∧
      (∀ s : ℕ, s < 2 → ∀ i : Fin n, SemiconjBy W (numberOp (s * n + i)) (numberOp ((1 - s) * n + i))) ∧
      (∀ q, 2 * n ≤ q → SemiconjBy W (numberOp q) (numberOp q)) ∧
      ∀ t U : ℝ, SemiconjBy W (clusterHubbard d points t U) (clusterHubbard d points t U) := by
  obtain ⟨W, W', hW⟩ := carFock.acts_swap (n := n) (E := pairsAt d points)
  refine ⟨W, W', hW.right, hW.left, fun s hs i => ?_, fun q hq => ?_, fun t U => ?_⟩
  · have := hW.number (s * n + i)
    rw [show swapMode n n (s * n + i) = (1 - s) * n + i by
      have := i.2
      interval_cases s <;> unfold swapMode <;> split_ifs <;> omega] at this
    exact this
  · have := hW.number q
    rw [show swapMode n n q = q by unfold swapMode; split_ifs <;> omega] at this
    exact this
  · rw [clusterHubbard_eq]
    have := op_add (op_smul hW.pairs (U : ℂ)) (op_smul (op_add hW.hop0 hW.hop1) (t : ℂ))
    rwa [add_comm (ringHop (R := Op) create annihilate n (pairsAt d points) 1)] at this

theorem spinBalanced (h : HubbardModel d L zoom coordOf run) : SpinBalanced count run := by
  intro t U N hN
  obtain ⟨V, hV, -, hs, hm, hh⟩ := h t U N N hN hN
  refine ⟨V, hV, fun s hs2 s' hs2' i j => ?_⟩
  obtain ⟨W, W', h1, h2, h3, h5, h4⟩ := swap_operator d L.points
  have hu : SemiconjBy W (spinNumber count 0) (spinNumber count 1) := op_number fun i => h3 0 (by norm_num) i
  have hd : SemiconjBy W (spinNumber count 1) (spinNumber count 0) := op_number fun i => h3 1 (by norm_num) i
  rw [setup_matrix hm] at hh ⊢
  rw [← pair_matrix V hs.nodup, ← pair_matrix V hs.nodup]
  exact averages_of hs.nodup h1 h2
    (mapsTo_of hs hu hd h5 (fun k hk => sector_down hs hk) fun k hk => sector_up hs hk)
    (mapsTo_of hs (semiconj_inv h1 h2 hd) (semiconj_inv h1 h2 hu)
      (fun q hq => semiconj_inv h1 h2 (h5 q hq)) (fun k hk => sector_down hs hk) fun k hk => sector_up hs hk)
    (mapsTo_clusterHubbard hs d L.points t U) (mapsTo_pair _ _) (h4 t U) rfl
    (SemiconjBy.mul_right (h3 s hs2 i) (h3 s' hs2' j)) hh

/-- Holes instead of particles of spin up, as an operator. -/
theorem hole_operator {colour : Fin n → Bool} (hc : ∀ i j, ndist (points i) (points j) = d → colour i ≠ colour j) :
    ∃ W W' : Op, W * W' = 1 ∧ W' * W = 1 ∧
      (∀ i : Fin n, SemiconjBy W (numberOp (0 * n + i)) (numberOp (0 * n + i))) ∧
      (∀ i : Fin n, SemiconjBy W (numberOp (1 * n + i)) (1 - numberOp (1 * n + i))) ∧
      (∀ q, 2 * n ≤ q → SemiconjBy W (numberOp q) (numberOp q)) ∧
      ∀ t U : ℝ, SemiconjBy W (clusterHubbard d points t U)
        (clusterHubbard d points t (-U) + (U : ℂ) • spinNumber n 0) := by
  obtain ⟨W1, W1', h1⟩ := carFock.acts_sign (n := n) (pairs_colour hc) false
  obtain ⟨W2, W2', h2⟩ := carFock.acts_hole (n := n) (E := pairsAt d points) fun p hp e => by
    exact pairs_colour hc p hp (by rw [e])
  rw [if_neg (by simp)] at h1
  have hnum : ∀ q, SemiconjBy (W2 * W1) (numberOp q)
      (if n ≤ q ∧ q < 2 * n then 1 - create q * annihilate q else create q * annihilate q) := fun q =>
    (h2.number q).mul_left (h1.number q)
  have hlow : ∀ q, ¬ (n ≤ q ∧ q < 2 * n) → SemiconjBy (W2 * W1) (numberOp q) (numberOp q) := fun q hq => by
    have := hnum q
    rw [if_neg hq] at this
    exact this
  refine ⟨W2 * W1, W1' * W2', ?_, ?_, fun i => hlow _ (by have := i.2; omega), fun i => ?_, fun q hq => hlow q (by omega),
    fun t U => ?_⟩
  · rw [mul_assoc, ← mul_assoc W1, h1.right, one_mul, h2.right]
  · rw [mul_assoc, ← mul_assoc W2', h2.left, one_mul, h1.left]
  · have := hnum (1 * n + i)
    rw [if_pos (by have := i.2; omega)] at this
    exact this
  · have p := h2.pairs.mul_left h1.pairs
    have q0 := h2.hop0.mul_left h1.hop0
    have q1 : SemiconjBy (W2 * W1) (ringHop (R := Op) create annihilate n (pairsAt d points) 1)
        (ringHop (R := Op) create annihilate n (pairsAt d points) 1) := by
      have := (op_neg h2.hop1).mul_left h1.hop1
      rwa [neg_neg (G := Op)] at this
    have := op_add (op_smul p (U : ℂ)) (op_smul (op_add q0 q1) (t : ℂ))
    rw [clusterHubbard_eq, clusterHubbard_eq]
    have e : (spinNumber n 0 : Op) = ∑ i : Fin n, create i * annihilate i := by
      unfold spinNumber numberOp
      simp only [zero_mul, zero_add]
    rw [← e] at this
    rw [flip_sign (R := Op)] at this
    exact this

theorem number_sq (q : ℕ) : (numberOp q * numberOp q : Op) = numberOp q := by
  refine end_ext fun S => ?_
  rw [Module.End.mul_apply, numberOp_ket]
  by_cases h : q ∈ S
  · rw [if_pos h, numberOp_ket, if_pos h]
  · rw [if_neg h, map_zero]

theorem one_sub_semiconj {W x y : Op} (h : SemiconjBy W x y) : SemiconjBy W (1 - x) (1 - y) :=
  op_sub (SemiconjBy.one_right W) h

theorem one_sub_semiconj' {W x y : Op} (h : SemiconjBy W x (1 - y)) : SemiconjBy W (1 - x) y := by
  have := one_sub_semiconj h
  rwa [sub_sub_cancel (G := Op)] at this

theorem op_holes {W : Op} {s s' : ℕ}
    (h : ∀ i : Fin n, SemiconjBy W (numberOp (s * n + i)) (1 - numberOp (s' * n + i))) :
    SemiconjBy W (spinNumber n s) ((n : ℂ) • 1 - spinNumber n s') := by
  have e : ((n : ℂ) • 1 - spinNumber n s' : Op) = ∑ i : Fin n, (1 - numberOp (s' * n + i)) :=
    sum_one_sub (R := Op) fun i : Fin n => numberOp (s' * n + i)
  rw [e]
  exact op_number h

theorem op_holes' {W : Op} {s s' : ℕ}
    (h : ∀ i : Fin n, SemiconjBy W (numberOp (s * n + i)) (1 - numberOp (s' * n + i))) :
    SemiconjBy W ((n : ℂ) • 1 - spinNumber n s) (spinNumber n s') := by
  have := op_sub (op_smul (SemiconjBy.one_right W) (n : ℂ)) (op_holes h)
  rwa [sub_sub_cancel (G := Op)] at this

/-- Holes instead of particles, and the spins exchanged. -/
theorem full_hole_operator {colour : Fin n → Bool} (hc : ∀ i j, ndist (points i) (points j) = d → colour i ≠ colour j) :
    ∃ W W' : Op, W * W' = 1 ∧ W' * W = 1 ∧
      (∀ i : Fin n, SemiconjBy W (numberOp (0 * n + i)) (1 - numberOp (1 * n + i))) ∧
      (∀ i : Fin n, SemiconjBy W (numberOp (1 * n + i)) (1 - numberOp (0 * n + i))) ∧
      (∀ q, 2 * n ≤ q → SemiconjBy W (numberOp q) (numberOp q)) ∧
      ∀ t U : ℝ, SemiconjBy W (clusterHubbard d points t U)
        (clusterHubbard d points t U + ((-U : ℝ) : ℂ) • spinNumber n 0 + (U : ℂ) • ((n : ℂ) • 1 - spinNumber n 1)) := by
  obtain ⟨P, P', p1, p2, p3, p4, p5, p6⟩ := hole_operator hc
  obtain ⟨S, S', s1, s2, s3, s4, s5⟩ := swap_operator d points
  have s30 : ∀ i : Fin n, SemiconjBy S (numberOp (0 * n + i)) (numberOp (1 * n + i)) := fun i => s3 0 (by norm_num) i
  have s31 : ∀ i : Fin n, SemiconjBy S (numberOp (1 * n + i)) (numberOp (0 * n + i)) := fun i => s3 1 (by norm_num) i
  refine ⟨P * (S * P), P' * S' * P', ?_, ?_, fun i => (p4 i).mul_left ((s30 i).mul_left (p3 i)),
    fun i => (one_sub_semiconj (p3 i)).mul_left ((one_sub_semiconj (s31 i)).mul_left (p4 i)),
    fun q hq => (p5 q hq).mul_left ((s4 q hq).mul_left (p5 q hq)), fun t U => ?_⟩
  · calc P * (S * P) * (P' * S' * P') = P * (S * (P * P') * S') * P' := by simp only [mul_assoc]
      _ = 1 := by rw [p1, mul_one, s1, mul_one, p1]
  · calc P' * S' * P' * (P * (S * P)) = P' * (S' * (P' * P) * S) * P := by simp only [mul_assoc]
      _ = 1 := by rw [p2, mul_one, s2, mul_one, p2]
  · have e1 := p6 t U
    have e2 := op_add (s5 t (-U)) (op_smul (op_number (n := n) (s := 0) fun i => s30 i) (U : ℂ))
    have e3 := op_add (p6 t (-U)) (op_smul (op_holes (n := n) (s := 1) (s' := 1) fun i => p4 i) (U : ℂ))
    rw [neg_neg] at e3
    exact SemiconjBy.mul_left e3 (SemiconjBy.mul_left e2 e1)

theorem uniformDensity (h : HubbardModel d L zoom coordOf run) (hcol : TwoColourable d L.points) :
    UniformDensity count run := by
  intro t U a b hab
  obtain ⟨V, hV, -, hs, hm, hh⟩ := h t U a b (by omega) (by omega)
  refine ⟨V, hV, fun i => ?_⟩
  obtain ⟨colour, hcol⟩ := hcol
  obtain ⟨W, W', h1, h2, h3, h4, h5, h6⟩ := full_hole_operator hcol
  have hca : (count : ℂ) - a = b := by rw [← hab]; push_cast; ring
  have hcb : (count : ℂ) - b = a := by rw [← hab]; push_cast; ring
  have ku : ∀ k ∈ V.basis, ((count : ℂ) • 1 - spinNumber count 0 : Op) (ket (occ k)) = (a : ℂ) • ket (occ k) := by
    intro k hk
    rw [LinearMap.sub_apply, LinearMap.smul_apply, Module.End.one_apply, sector_down hs hk, ← sub_smul, hcb]
  have kd : ∀ k ∈ V.basis, ((count : ℂ) • 1 - spinNumber count 1 : Op) (ket (occ k)) = (b : ℂ) • ket (occ k) := by
    intro k hk
    rw [LinearMap.sub_apply, LinearMap.smul_apply, Module.End.one_apply, sector_up hs hk, ← sub_smul, hca]
  rw [setup_matrix hm] at hh ⊢
  have hone : (1 : Matrix (Fin V.basis.length) (Fin V.basis.length) ℂ) = opMat V.basis 1 := (opMat2_one hs.nodup).symm
  have key : SameAverages (opMat V.basis (clusterHubbard d L.points t U)) (opMat V.basis (numberOp i * numberOp i))
      (opMat V.basis (1 - numberOp (count + i) * numberOp (count + i))) := by
    refine averages_of hs.nodup h1 h2 (mapsTo_of hs (op_holes' h3) (op_holes' h4) h5 ku kd)
      (mapsTo_of hs (semiconj_inv h1 h2 (op_holes h4)) (semiconj_inv h1 h2 (op_holes h3))
        (fun q hq => semiconj_inv h1 h2 (h5 q hq)) ku kd)
      (mapsTo_clusterHubbard hs d L.points t U) (mapsTo_pair _ _) (h6 t U) ?_ ?_ hh
    · ext r c
      have e : (clusterHubbard d L.points t U + ((-U : ℝ) : ℂ) • spinNumber count 0 +
          (U : ℂ) • ((count : ℂ) • 1 - spinNumber count 1) : Op) (ket (occ V.basis[c])) =
          clusterHubbard d L.points t U (ket (occ V.basis[c])) := by
        have hk : V.basis[c] ∈ V.basis := List.getElem_mem _
        rw [LinearMap.add_apply, LinearMap.add_apply, LinearMap.smul_apply, LinearMap.smul_apply, kd _ hk,
          sector_down hs hk, Complex.ofReal_neg, neg_smul, neg_add_cancel_right]
      exact congrArg (fun f : Fock => f (occ V.basis[r])) e
    · rw [number_sq, number_sq]
      have := h3 i
      simpa only [one_mul, zero_mul, zero_add] using this
  have e : opMat V.basis (1 - numberOp (count + i) * numberOp (count + i)) =
      opMat V.basis 1 - opMat V.basis (numberOp (count + i) * numberOp (count + i)) := by
    ext r c
    rfl
  rw [e, ← hone, pair_matrix V hs.nodup, pair_matrix V hs.nodup] at key
  exact key.of_sub

end

end Verif.LDB
