import Verif.Spec.Dimer
import Verif.Proofs.HubbardLowest
import Verif.Proofs.HubbardRuns
/-!
Helper lemmas: the Hubbard model of two points (for C126).
-/

namespace Verif.LDB

open Verif.Latt Verif.Spec Demo Matrix

local notation "Op" => Module.End ℂ Fock

/-- `<T| c_p^dagger c_q |S>` as an integer. -/
def hopInt (p q : ℕ) (S T : Finset ℕ) : ℤ :=
  if q ∈ S ∧ p ∉ S.erase q ∧ insert p (S.erase q) = T then
    (-1) ^ (S.filter (· < q)).card * (-1) ^ ((S.erase q).filter (· < p)).card else 0

theorem hop_entry (p q : ℕ) (S T : Finset ℕ) : (create p * annihilate q : Op) (ket S) T = (hopInt p q S T : ℂ) := by
  rw [Module.End.mul_apply, annihilate_ket]
  unfold hopInt
  by_cases h1 : q ∈ S
  · rw [if_pos h1, map_smul, create_ket]
    by_cases h2 : p ∈ S.erase q
    · rw [if_pos h2, if_neg (by tauto)]
      simp
    · rw [if_neg h2]
      by_cases h3 : insert p (S.erase q) = T
      · rw [if_pos ⟨h1, h2, h3⟩]
        subst h3
        simp [ket, jwSign]
      · rw [if_neg (by tauto)]
        simp [ket_zero h3]
  · rw [if_neg h1, if_neg (by tauto)]
    simp

/-- `<T| n_p n_q |S>` as an integer. -/
def pairInt (p q : ℕ) (S T : Finset ℕ) : ℤ := if p ∈ S ∧ q ∈ S ∧ S = T then 1 else 0

theorem pair_entry (p q : ℕ) (S T : Finset ℕ) : (numberOp p * numberOp q : Op) (ket S) T = (pairInt p q S T : ℂ) := by
  rw [Module.End.mul_apply, numberOp_ket]
  unfold pairInt
  by_cases h1 : q ∈ S
  · rw [if_pos h1, numberOp_ket]
    by_cases h2 : p ∈ S
    · rw [if_pos h2]
      by_cases h3 : S = T
      · rw [if_pos ⟨h2, h1, h3⟩]
        subst h3
        simp [ket]
      · rw [if_neg (by tauto), ket_zero h3]; simp
    · rw [if_neg h2, if_neg (by tauto)]; simp
  · rw [if_neg h1, if_neg (by tauto)]; simp

/-- The integers that multiply `U` and `t` in a matrix element for two points. -/
def dimerU (a b : ℕ) : ℤ := pairInt 2 0 (occ b) (occ a) + pairInt 3 1 (occ b) (occ a)

/-- See `dimerU`. -/
def dimerT (a b : ℕ) : ℤ := hopInt 0 1 (occ b) (occ a) + hopInt 1 0 (occ b) (occ a) +
  (hopInt 2 3 (occ b) (occ a) + hopInt 3 2 (occ b) (occ a))

variable {m : ℕ} {d : ℝ} {points : Fin 2 → Pt m}

theorem dimer_entry (h : ndist (points 0) (points 1) = d) (t U : ℝ) (a b : ℕ) :
    matrixElement (clusterHubbard d points t U) (occ a) (occ b) = (U : ℂ) * dimerU a b + (t : ℂ) * dimerT a b := by
  classical
  have hset : (Finset.univ.filter fun p : Fin 2 × Fin 2 => p.1 < p.2 ∧ ndist (points p.1) (points p.2) = d) = {(0, 1)} := by
    ext ⟨i, j⟩
    simp only [Finset.mem_filter, Finset.mem_univ, true_and, Finset.mem_singleton, Prod.mk.injEq]
    constructor
    · rintro ⟨hlt, -⟩
      constructor <;> (fin_cases i <;> fin_cases j <;> simp_all)
    · rintro ⟨rfl, rfl⟩
      exact ⟨by decide, h⟩
  unfold matrixElement clusterHubbard
  have e1 : (Finset.univ.filter fun p : Fin 2 × Fin 2 => p.1 < p.2 ∧ ndist (points p.1) (points p.2) = d) = {(0, 1)} := hset
  rw [LinearMap.add_apply, LinearMap.smul_apply, LinearMap.smul_apply, Fin.sum_univ_two]
  have e2 : (∑ p : Fin 2 × Fin 2 with p.1 < p.2 ∧ ndist (points p.1) (points p.2) = d, hopPair 2 2 p.1 p.2 : Op) =
      hopPair 2 2 0 1 := by
    rw [Finset.sum_congr e1 fun _ _ => rfl, Finset.sum_singleton]
    rfl
  have e3 : (hopPair 2 2 0 1 : Op) = (create 0 * annihilate 1 + create 1 * annihilate 0) +
      (create 2 * annihilate 3 + create 3 * annihilate 2) := by
    unfold hopPair
    rw [Finset.sum_range_succ, Finset.sum_range_one]
  rw [Finsupp.add_apply, Finsupp.smul_apply, Finsupp.smul_apply, smul_eq_mul, smul_eq_mul]
  congr 1
  · congr 1
    rw [LinearMap.add_apply, Finsupp.add_apply]
    unfold dimerU
    push_cast
    exact congrArg₂ (· + ·) (pair_entry 2 0 _ _) (pair_entry 3 1 _ _)
  · congr 1
    have e4 := congrArg (fun O : Op => O (ket (occ b)) (occ a)) (e2.trans e3)
    refine Eq.trans (by convert e4) ?_
    simp only [LinearMap.add_apply, Finsupp.add_apply, hop_entry]
    unfold dimerT
    push_cast
    rfl

/-- The bases. -/
theorem dimer_sector {a b : ℕ} (B : List ℕ) (hp : B.Pairwise (· < ·)) (hB : ∀ k, k < 16 → (k ∈ B ↔ 
    ((occ k).filter (2 ≤ ·)).card = a ∧ ((occ k).filter (· < 2)).card = b)) (hB' : ∀ k ∈ B, k < 16) :
    SpinSector 2 a b B := by
  refine ⟨hp, fun k => ?_⟩
  constructor
  · intro hk
    have h16 := hB' k hk
    refine ⟨?_, (hB k h16).1 hk⟩
    clear hk hB
    interval_cases k <;> decide
  · rintro ⟨h1, h2⟩
    have hk : k < 16 := by
      by_contra h
      obtain ⟨i, hi, hi2⟩ := Nat.exists_ge_and_testBit_of_ge_two_pow (x := k) (n := 4) (by omega)
      have := Finset.mem_range.1 (h1 ((mem_occ _ _).2 hi2))
      omega
    exact (hB k hk).2 h2

/-- The matrix of a sector in terms of integers. -/
noncomputable def dimerMat (B : List ℕ) (t U : ℝ) : Matrix (Fin B.length) (Fin B.length) ℂ :=
  .of fun r c => (U : ℂ) * dimerU B[r] B[c] + (t : ℂ) * dimerT B[r] B[c]

section
variable {L : Lat 2 m m} {zoom : ℤ} {coordOf : ℝ → Coord} {run : ℝ → ℝ → ℕ → ℕ → Option (Py Setup)}

theorem levels_of (h : HubbardModel d L zoom coordOf run) (hd : ndist (L.points 0) (L.points 1) = d) {a b : ℕ}
    (ha : a ≤ 2) (hb : b ≤ 2) {B : List ℕ} (hB : SpinSector 2 a b B) (t U : ℝ) (levels : List ℝ)
    (hc : (dimerMat B t U).charpoly = (levels.map fun e : ℝ => Polynomial.X - Polynomial.C (e : ℂ)).prod) :
    HasLevels run t U a b levels := by
  obtain ⟨V, hV, -, hs, hm, -⟩ := h t U a b ha hb
  refine ⟨V, hV, ?_⟩
  rw [setup_matrix hm, hs.unique hB, ← hc]
  congr 1
  ext r c
  exact dimer_entry hd t U _ _

theorem dimer_mat {N : ℕ} (b : Fin N → ℕ) (MU MT : Matrix (Fin N) (Fin N) ℤ)
    (hU : ∀ r c, dimerU (b r) (b c) = MU r c) (hT : ∀ r c, dimerT (b r) (b c) = MT r c) (t U : ℝ)
    {M : Matrix (Fin N) (Fin N) ℂ} (hM : ∀ r c, (U : ℂ) * (MU r c : ℂ) + (t : ℂ) * (MT r c : ℂ) = M r c) :
    (Matrix.of fun r c => (U : ℂ) * (dimerU (b r) (b c) : ℂ) + (t : ℂ) * (dimerT (b r) (b c) : ℂ)) = M := by
  ext r c
  simp only [Matrix.of_apply, hU, hT, hM]

theorem sqrt_levels (t U : ℝ) : (Polynomial.X - Polynomial.C (((U + Real.sqrt (U ^ 2 + 16 * t ^ 2)) / 2 : ℝ) : ℂ)) *
    (Polynomial.X - Polynomial.C (((U - Real.sqrt (U ^ 2 + 16 * t ^ 2)) / 2 : ℝ) : ℂ)) =
    Polynomial.X ^ 2 - Polynomial.C (U : ℂ) * Polynomial.X - Polynomial.C (4 * (t : ℂ) ^ 2) := by
  have h : (Real.sqrt (U ^ 2 + 16 * t ^ 2)) ^ 2 = U ^ 2 + 16 * t ^ 2 := Real.sq_sqrt (by positivity)
  generalize Real.sqrt (U ^ 2 + 16 * t ^ 2) = s at *
  have h1 : (U : ℂ) = (((U + s) / 2 : ℝ) : ℂ) + (((U - s) / 2 : ℝ) : ℂ) := by push_cast; ring
  have h2 : -(4 * (t : ℂ) ^ 2) = (((U + s) / 2 : ℝ) : ℂ) * (((U - s) / 2 : ℝ) : ℂ) := by
    have : -(4 * t ^ 2) = (U + s) / 2 * ((U - s) / 2) := by linear_combination (1 / 4 : ℝ) * h
    exact_mod_cast congrArg (fun x : ℝ => (x : ℂ)) this
  have h3 : Polynomial.C (4 * (t : ℂ) ^ 2) = -Polynomial.C (-(4 * (t : ℂ) ^ 2)) := by rw [Polynomial.C_neg, neg_neg]
  rw [h3, h2]
  conv_rhs => rw [h1]
  rw [Polynomial.C_add, Polynomial.C_mul]
  ring

theorem char_11 (t U : ℝ) : (dimerMat [5, 6, 9, 10] t U).charpoly =
    ([0, U, (U + Real.sqrt (U ^ 2 + 16 * t ^ 2)) / 2, (U - Real.sqrt (U ^ 2 + 16 * t ^ 2)) / 2].map
      fun e : ℝ => Polynomial.X - Polynomial.C (e : ℂ)).prod := by
  have key := dimer_mat (fun r : Fin 4 => [5, 6, 9, 10][r]) !![1, 0, 0, 0; 0, 0, 0, 0; 0, 0, 0, 0; 0, 0, 0, 1]
    !![0, 1, 1, 0; 1, 0, 0, 1; 1, 0, 0, 1; 0, 1, 1, 0] (by intro r c; fin_cases r <;> fin_cases c <;> decide)
    (by intro r c; fin_cases r <;> fin_cases c <;> decide) t U
    (M := !![(U : ℂ), t, t, 0; t, 0, 0, t; t, 0, 0, t; 0, t, t, U])
    (by intro r c; fin_cases r <;> fin_cases c <;> simp)
  refine (congrArg Matrix.charpoly key).trans ?_
  simp only [List.map_cons, List.map_nil, List.prod_cons, List.prod_nil, mul_one]
  rw [sqrt_levels, show Polynomial.C (4 * (t : ℂ) ^ 2) = 4 * Polynomial.C (t : ℂ) ^ 2 by
    rw [Polynomial.C_mul, Polynomial.C_pow]; rfl]
  unfold Matrix.charpoly Matrix.charmatrix
  simp [Matrix.det_succ_row_zero, Fin.sum_univ_succ, Fin.succAbove]
  ring

theorem char_10 (t U : ℝ) : (dimerMat [4, 8] t U).charpoly =
    ([t, -t].map fun e : ℝ => Polynomial.X - Polynomial.C (e : ℂ)).prod := by
  have key := dimer_mat (fun r : Fin 2 => [4, 8][r]) 0 !![0, 1; 1, 0] (by intro r c; fin_cases r <;> fin_cases c <;> decide)
    (by intro r c; fin_cases r <;> fin_cases c <;> decide) t U
    (M := !![0, (t : ℂ); t, 0]) (by intro r c; fin_cases r <;> fin_cases c <;> simp)
  refine (congrArg Matrix.charpoly key).trans ?_
  simp [Matrix.charpoly, Matrix.charmatrix, Matrix.det_fin_two]
  ring

theorem char_01 (t U : ℝ) : (dimerMat [1, 2] t U).charpoly =
    ([t, -t].map fun e : ℝ => Polynomial.X - Polynomial.C (e : ℂ)).prod := by
  have key := dimer_mat (fun r : Fin 2 => [1, 2][r]) 0 !![0, 1; 1, 0] (by intro r c; fin_cases r <;> fin_cases c <;> decide)
    (by intro r c; fin_cases r <;> fin_cases c <;> decide) t U
    (M := !![0, (t : ℂ); t, 0]) (by intro r c; fin_cases r <;> fin_cases c <;> simp)
  refine (congrArg Matrix.charpoly key).trans ?_
  simp [Matrix.charpoly, Matrix.charmatrix, Matrix.det_fin_two]
  ring

theorem char_21 (t U : ℝ) : (dimerMat [13, 14] t U).charpoly =
    ([U + t, U - t].map fun e : ℝ => Polynomial.X - Polynomial.C (e : ℂ)).prod := by
  have key := dimer_mat (fun r : Fin 2 => [13, 14][r]) !![1, 0; 0, 1] !![0, 1; 1, 0] (by intro r c; fin_cases r <;> fin_cases c <;> decide)
    (by intro r c; fin_cases r <;> fin_cases c <;> decide) t U
    (M := !![(U : ℂ), t; t, U]) (by intro r c; fin_cases r <;> fin_cases c <;> simp)
  refine (congrArg Matrix.charpoly key).trans ?_
  simp [Matrix.charpoly, Matrix.charmatrix, Matrix.det_fin_two]
  ring

theorem char_12 (t U : ℝ) : (dimerMat [7, 11] t U).charpoly =
    ([U + t, U - t].map fun e : ℝ => Polynomial.X - Polynomial.C (e : ℂ)).prod := by
  have key := dimer_mat (fun r : Fin 2 => [7, 11][r]) !![1, 0; 0, 1] !![0, 1; 1, 0] (by intro r c; fin_cases r <;> fin_cases c <;> decide)
    (by intro r c; fin_cases r <;> fin_cases c <;> decide) t U
    (M := !![(U : ℂ), t; t, U]) (by intro r c; fin_cases r <;> fin_cases c <;> simp)
  refine (congrArg Matrix.charpoly key).trans ?_
  simp [Matrix.charpoly, Matrix.charmatrix, Matrix.det_fin_two]
  ring

theorem char_one (k : ℕ) (x : ℤ) (hU : dimerU k k = x) (hT : dimerT k k = 0) (t U : ℝ) : (dimerMat [k] t U).charpoly =
    ([x * U].map fun e : ℝ => Polynomial.X - Polynomial.C (e : ℂ)).prod := by
  have key := dimer_mat (fun r : Fin 1 => [k][r]) !![x] 0 (fun r c => by fin_cases r; fin_cases c; exact hU)
    (fun r c => by fin_cases r; fin_cases c; exact hT) t U
    (M := !![(x : ℂ) * U]) (by intro r c; fin_cases r; fin_cases c; simp [mul_comm])
  refine (congrArg Matrix.charpoly key).trans ?_
  simp [Matrix.charpoly, Matrix.charmatrix]

theorem dimer_energies (h : HubbardModel d L zoom coordOf run) (hd : ndist (L.points 0) (L.points 1) = d) :
    DimerEnergies run := by
  intro t U
  refine ⟨?_, ?_, ?_, ?_, ?_, ?_, ?_, ?_, ?_⟩
  · refine levels_of h hd (by norm_num) (by norm_num) (dimer_sector [0] (by decide) (by decide) (by decide)) t U _ ?_
    simpa using char_one 0 0 (by decide) (by decide) t U
  · exact levels_of h hd (by norm_num) (by norm_num) (dimer_sector [4, 8] (by decide) (by decide) (by decide)) t U _
      (char_10 t U)
  · exact levels_of h hd (by norm_num) (by norm_num) (dimer_sector [1, 2] (by decide) (by decide) (by decide)) t U _
      (char_01 t U)
  · refine levels_of h hd (by norm_num) (by norm_num) (dimer_sector [12] (by decide) (by decide) (by decide)) t U _ ?_
    simpa using char_one 12 0 (by decide) (by decide) t U
  · refine levels_of h hd (by norm_num) (by norm_num) (dimer_sector [3] (by decide) (by decide) (by decide)) t U _ ?_
    simpa using char_one 3 0 (by decide) (by decide) t U
  · exact levels_of h hd (by norm_num) (by norm_num) (dimer_sector [5, 6, 9, 10] (by decide) (by decide) (by decide)) t U _
      (char_11 t U)
  · exact levels_of h hd (by norm_num) (by norm_num) (dimer_sector [13, 14] (by decide) (by decide) (by decide)) t U _
      (char_21 t U)
  · exact levels_of h hd (by norm_num) (by norm_num) (dimer_sector [7, 11] (by decide) (by decide) (by decide)) t U _
      (char_12 t U)
  · refine levels_of h hd (by norm_num) (by norm_num) (dimer_sector [15] (by decide) (by decide) (by decide)) t U _ ?_
    simpa using char_one 15 2 (by decide) (by decide) t U

theorem lowest_of_charpoly {N : ℕ} {M : Matrix (Fin N) (Fin N) ℂ} {levels : List ℝ} {E : ℝ}
    (h : M.charpoly = (levels.map fun e : ℝ => Polynomial.X - Polynomial.C (e : ℂ)).prod) (hE : E ∈ levels)
    (hmin : ∀ e ∈ levels, E ≤ e) : IsLowest M E := by
  have root : ∀ z : ℂ, M.charpoly.eval z = 0 ↔ ∃ e ∈ levels, z = (e : ℂ) := by
    intro z
    rw [h, Polynomial.eval_list_prod, List.prod_eq_zero_iff, List.map_map]
    simp only [List.mem_map, Function.comp, Polynomial.eval_sub, Polynomial.eval_X, Polynomial.eval_C, sub_eq_zero]
  have eig : ∀ z : ℂ, (∃ v : Fin N → ℂ, v ≠ 0 ∧ M.mulVec v = z • v) ↔ M.charpoly.eval z = 0 := by
    intro z
    rw [Matrix.eval_charpoly, ← Matrix.exists_mulVec_eq_zero_iff]
    refine exists_congr fun v => and_congr_right fun _ => ?_
    rw [Matrix.sub_mulVec, sub_eq_zero, Matrix.scalar_apply, ← Matrix.smul_one_eq_diagonal, Matrix.smul_mulVec,
      Matrix.one_mulVec]
    exact eq_comm
  refine ⟨(eig E).2 ((root E).2 ⟨E, hE, rfl⟩), fun z v hv hz => ?_⟩
  obtain ⟨e, he, rfl⟩ := (root z).1 ((eig z).1 ⟨v, hv, hz⟩)
  exact ⟨Complex.ofReal_im e, by rw [Complex.ofReal_re]; exact hmin e he⟩

theorem dimer_ground (h : DimerEnergies run) : DimerGround run := by
  intro t U
  obtain ⟨V, hV, hc⟩ := (h t U).2.2.2.2.2.1
  refine ⟨V, hV, lowest_of_charpoly hc (by simp) ?_⟩
  have hs : |U| ≤ Real.sqrt (U ^ 2 + 16 * t ^ 2) := by
    rw [← Real.sqrt_sq_eq_abs]
    exact Real.sqrt_le_sqrt (by nlinarith [sq_nonneg t])
  have h1 := (abs_le.1 hs).1
  have h2 := (abs_le.1 hs).2
  simp only [List.mem_cons, List.not_mem_nil, or_false, forall_eq_or_imp, forall_eq]
  refine ⟨?_, ?_, ?_, ?_⟩ <;> linarith [Real.sqrt_nonneg (U ^ 2 + 16 * t ^ 2)]

end

end Verif.LDB
