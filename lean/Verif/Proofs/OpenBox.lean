import Verif.Spec.OpenBox
import Verif.Proofs.LatticeBand
import Mathlib.LinearAlgebra.Eigenspace.Basic
import Mathlib.LinearAlgebra.Vandermonde
import Mathlib.RingTheory.RootsOfUnity.Complex
import Verif.Proofs.Numbering
/-!
Helper lemmas: the levels of an electron in an open box (for C124).
-/

namespace Verif.LDB

open Verif.Latt Verif.Spec Demo

/-- A complete set of eigenvectors with the eigenvalues `E`. -/
def Solved {ι κ : Type} [Fintype ι] (H : Matrix ι ι ℂ) (E : κ → ℝ) : Prop :=
  Nonempty (κ ≃ ι) ∧ ∃ W : κ → ι → ℂ, LinearIndependent ℂ W ∧ ∀ q i, ∑ j, H i j * W q j = (E q : ℂ) * W q i

section tensor

variable {ι ι' κ κ' : Type} [Fintype ι] [Fintype ι'] [Fintype κ] [Fintype κ']

theorem independent_prod {f : κ → ι → ℂ} {g : κ' → ι' → ℂ} (hf : LinearIndependent ℂ f) (hg : LinearIndependent ℂ g) :
    LinearIndependent ℂ fun (q : κ × κ') (i : ι × ι') => f q.1 i.1 * g q.2 i.2 := by
  rw [Fintype.linearIndependent_iff] at hf hg ⊢
  intro c hc
  have key : ∀ b q, ∑ q', c (q, q') * g q' b = 0 := by
    intro b
    refine hf (fun q => ∑ q', c (q, q') * g q' b) ?_
    funext a
    have := congrFun hc (a, b)
    simp only [Finset.sum_apply, Pi.smul_apply, smul_eq_mul, Pi.zero_apply, Fintype.sum_prod_type] at this ⊢
    rw [← this]
    refine Finset.sum_congr rfl fun q _ => ?_
    rw [Finset.sum_mul]
    exact Finset.sum_congr rfl fun q' _ => by ring
  rintro ⟨q, q'⟩
  refine hg (fun q' => c (q, q')) ?_ q'
  funext b
  have := key b q
  simpa using this

/-- Two independent directions. -/
def kronSum [DecidableEq ι] [DecidableEq ι'] (H : Matrix ι ι ℂ) (H' : Matrix ι' ι' ℂ) : Matrix (ι × ι') (ι × ι') ℂ :=
  .of fun p q => (if p.2 = q.2 then H p.1 q.1 else 0) + if p.1 = q.1 then H' p.2 q.2 else 0

theorem Solved.prod [DecidableEq ι] [DecidableEq ι'] {H : Matrix ι ι ℂ} {H' : Matrix ι' ι' ℂ} {E : κ → ℝ} {E' : κ' → ℝ}
    (h : Solved H E) (h' : Solved H' E') : Solved (kronSum H H') fun q : κ × κ' => E q.1 + E' q.2 := by
  obtain ⟨⟨e⟩, W, hW, hE⟩ := h
  obtain ⟨⟨e'⟩, W', hW', hE'⟩ := h'
  refine ⟨⟨e.prodCongr e'⟩, _, independent_prod hW hW', ?_⟩
  rintro ⟨q, q'⟩ ⟨i, i'⟩
  simp only [kronSum, Matrix.of_apply, add_mul, Finset.sum_add_distrib, Fintype.sum_prod_type, ite_mul, zero_mul,
    Finset.sum_ite_eq, Finset.mem_univ, if_true]
  have h1 : ∑ x, H i x * (W q x * W' q' i') = (∑ x, H i x * W q x) * W' q' i' := by
    rw [Finset.sum_mul]; exact Finset.sum_congr rfl fun _ _ => by ring
  have h2 : (∑ x, ∑ x', if i = x then H' i' x' * (W q x * W' q' x') else 0) = W q i * ∑ x', H' i' x' * W' q' x' := by
    rw [Finset.sum_comm, Finset.mul_sum]
    refine Finset.sum_congr rfl fun x' _ => ?_
    rw [Finset.sum_ite_eq, if_pos (Finset.mem_univ _)]
    ring
  rw [h1, h2, hE, hE']
  push_cast
  ring

theorem Solved.charpoly [DecidableEq ι] [DecidableEq κ] {H : Matrix ι ι ℂ} {E : κ → ℝ} (h : Solved H E) :
    H.charpoly = ∏ q, (Polynomial.X - Polynomial.C ((E q : ℝ) : ℂ)) := by
  obtain ⟨⟨e⟩, W, hW, hE⟩ := h
  exact charpoly_of_eigen e H W hW _ hE

end tensor

/-! ### The open chain -/

/-- Hopping between neighbouring numbers. -/
def pathMatrix (n : ℕ) (t : ℝ) : Matrix (Fin n) (Fin n) ℂ :=
  .of fun i j => if (j : ℕ) + 1 = i ∨ (i : ℕ) + 1 = j then (t : ℂ) else 0

theorem path_sum {n : ℕ} (s : ℕ → ℂ) (h0 : s 0 = 0) (hn : s (n + 1) = 0) (i : Fin n) :
    ∑ j : Fin n, (if (j : ℕ) + 1 = i ∨ (i : ℕ) + 1 = j then s (j + 1) else 0) = s i + s (i + 2) := by
  have hsplit : ∀ j : Fin n, (if (j : ℕ) + 1 = i ∨ (i : ℕ) + 1 = j then s (j + 1) else 0) =
      (if (j : ℕ) + 1 = i then s i else 0) + if (i : ℕ) + 1 = j then s (i + 2) else 0 := by
    intro j
    by_cases a : (j : ℕ) + 1 = i
    · have b : ¬ (i : ℕ) + 1 = j := by omega
      rw [if_pos (Or.inl a), if_pos a, if_neg b, a, add_zero]
    · by_cases b : (i : ℕ) + 1 = j
      · rw [if_pos (Or.inr b), if_neg a, if_pos b, zero_add, ← b]
      · rw [if_neg (by tauto), if_neg a, if_neg b, add_zero]
  rw [Finset.sum_congr rfl fun j _ => hsplit j, Finset.sum_add_distrib]
  congr 1
  · rcases Nat.eq_zero_or_pos (i : ℕ) with h | h
    · rw [h, h0]; simp
    · rw [Finset.sum_eq_single (⟨i - 1, by omega⟩ : Fin n)]
      · rw [if_pos (by simp; omega)]
      · intro b _ hb
        rw [if_neg]
        intro hc
        exact hb (Fin.ext (by simp; omega))
      · intro h; exact absurd (Finset.mem_univ _) h
  · by_cases h : (i : ℕ) + 1 < n
    · rw [Finset.sum_eq_single (⟨i + 1, h⟩ : Fin n)]
      · rw [if_pos rfl]
      · intro b _ hb
        rw [if_neg]
        intro hc
        exact hb (Fin.ext hc.symm)
      · intro h; exact absurd (Finset.mem_univ _) h
    · have : (i : ℕ) + 2 = n + 1 := by omega
      rw [this, hn]
      simp

/-- The standing waves. -/
noncomputable def standing (n : ℕ) (k : Fin n) (i : Fin n) : ℂ :=
  ((Real.sin (Real.pi * ((k : ℝ) + 1) / ((n : ℝ) + 1) * ((i : ℝ) + 1)) : ℝ) : ℂ)

theorem standing_eigen {n : ℕ} (t : ℝ) (k i : Fin n) :
    ∑ j, pathMatrix n t i j * standing n k j = (chainLevel n t k : ℂ) * standing n k i := by
  set θ : ℝ := Real.pi * ((k : ℝ) + 1) / ((n : ℝ) + 1) with hθ
  have hn : ((n : ℝ) + 1) ≠ 0 := by positivity
  have h := path_sum (n := n) (fun j => ((Real.sin (θ * j) : ℝ) : ℂ)) (by simp) (by
    have : θ * ((n + 1 : ℕ) : ℝ) = ((k + 1 : ℕ) : ℝ) * Real.pi := by
      rw [hθ]; push_cast; field_simp
    rw [this, Real.sin_nat_mul_pi]; simp) i
  have h2 : ∑ j, pathMatrix n t i j * standing n k j =
      (t : ℂ) * ∑ j : Fin n, (if (j : ℕ) + 1 = i ∨ (i : ℕ) + 1 = j then ((Real.sin (θ * ((j + 1 : ℕ) : ℝ)) : ℝ) : ℂ) else 0) := by
    rw [Finset.mul_sum]
    refine Finset.sum_congr rfl fun j _ => ?_
    simp only [pathMatrix, Matrix.of_apply, standing]
    push_cast
    split <;> simp [hθ]
  rw [h2, h, chainLevel, standing, ← hθ]
  have h3 : Real.sin (θ * (i : ℝ)) + Real.sin (θ * (((i : ℕ) + 2 : ℕ) : ℝ)) =
      2 * Real.cos θ * Real.sin (θ * ((i : ℝ) + 1)) := by
    have e1 : θ * (i : ℝ) = θ * ((i : ℝ) + 1) - θ := by ring
    have e2 : θ * (((i : ℕ) + 2 : ℕ) : ℝ) = θ * ((i : ℝ) + 1) + θ := by push_cast; ring
    rw [e1, e2, Real.sin_sub, Real.sin_add]
    ring
  rw [← Complex.ofReal_add, h3]
  push_cast
  ring

theorem angle_mem {n : ℕ} (k : Fin n) : 0 < Real.pi * ((k : ℝ) + 1) / ((n : ℝ) + 1) ∧
    Real.pi * ((k : ℝ) + 1) / ((n : ℝ) + 1) < Real.pi := by
  have hk : (k : ℝ) + 1 < (n : ℝ) + 1 := by
    have : (k : ℝ) < n := by exact_mod_cast k.2
    linarith
  have hp := Real.pi_pos
  have hn : (0 : ℝ) < (n : ℝ) + 1 := by positivity
  refine ⟨by positivity, ?_⟩
  rw [div_lt_iff₀ hn]
  exact mul_lt_mul_of_pos_left hk hp

theorem standing_independent (n : ℕ) : LinearIndependent ℂ (standing n) := by
  refine Module.End.eigenvectors_linearIndependent' (Matrix.mulVecLin (pathMatrix n 1))
    (fun k => (chainLevel n 1 k : ℂ)) ?_ _ fun k => ?_
  · intro a b hab
    have h1 : chainLevel n 1 a = chainLevel n 1 b := Complex.ofReal_injective hab
    unfold chainLevel at h1
    have h2 := mul_left_cancel₀ (by norm_num : (2 * 1 : ℝ) ≠ 0) h1
    have h3 := Real.injOn_cos ⟨(angle_mem a).1.le, (angle_mem a).2.le⟩ ⟨(angle_mem b).1.le, (angle_mem b).2.le⟩ h2
    have hn : ((n : ℝ) + 1) ≠ 0 := by positivity
    have hp := Real.pi_ne_zero
    field_simp at h3
    have h4 : (a : ℝ) = b := by linarith
    exact Fin.ext (by exact_mod_cast h4)
  · refine ⟨Module.End.mem_eigenspace_iff.2 ?_, ?_⟩
    · funext i
      simp only [Matrix.mulVecLin_apply, Matrix.mulVec, dotProduct, Pi.smul_apply, smul_eq_mul]
      exact standing_eigen 1 k i
    · intro h0
      have hpos : 0 < n := lt_of_le_of_lt (Nat.zero_le _) k.2
      have := congrFun h0 ⟨0, hpos⟩
      simp only [standing, Pi.zero_apply, Complex.ofReal_eq_zero, CharP.cast_eq_zero, zero_add, mul_one] at this
      exact absurd this (Real.sin_pos_of_pos_of_lt_pi (angle_mem k).1 (angle_mem k).2).ne'

theorem solved_path (n : ℕ) (t : ℝ) : Solved (pathMatrix n t) (chainLevel n t) :=
  ⟨⟨Equiv.refl _⟩, standing n, standing_independent n, standing_eigen t⟩

/-! ### Sums of levels -/

theorem prod_choices {κ R : Type} [Fintype κ] [CommMonoid R] (N : ℕ) (a : κ → ℝ) (F : ℝ → R) :
    ∏ A ∈ Finset.powersetCard N (Finset.univ : Finset κ), F (∑ k ∈ A, a k) =
      (((Finset.univ.val.map a).powersetCard N).map fun s => F s.sum).prod := by
  rw [Multiset.powersetCard_map, Multiset.map_map, ← Finset.map_val_val_powersetCard, Multiset.map_map]
  rfl

theorem levels_congr {ι κ : Type} [Fintype ι] [Fintype κ] {a : ι → ℝ} {b : κ → ℝ}
    (h : ∏ i, (Polynomial.X - Polynomial.C ((a i : ℝ) : ℂ)) = ∏ i, (Polynomial.X - Polynomial.C ((b i : ℝ) : ℂ)))
    (Nup Ndown : ℕ) :
    ∏ A ∈ Finset.powersetCard Nup (Finset.univ : Finset ι), ∏ D ∈ Finset.powersetCard Ndown (Finset.univ : Finset ι),
        (Polynomial.X - Polynomial.C ((∑ k ∈ A, a k + ∑ k ∈ D, a k : ℝ) : ℂ)) =
      ∏ A ∈ Finset.powersetCard Nup (Finset.univ : Finset κ), ∏ D ∈ Finset.powersetCard Ndown (Finset.univ : Finset κ),
        (Polynomial.X - Polynomial.C ((∑ k ∈ A, b k + ∑ k ∈ D, b k : ℝ) : ℂ)) := by
  have hm : Finset.univ.val.map a = Finset.univ.val.map b := by
    have := congrArg Polynomial.roots h
    rw [roots_real, roots_real] at this
    exact Multiset.map_injective Complex.ofReal_injective this
  have ha : ∀ x : ℝ, ∏ D ∈ Finset.powersetCard Ndown (Finset.univ : Finset ι),
      (Polynomial.X - Polynomial.C ((x + ∑ k ∈ D, a k : ℝ) : ℂ)) =
      ∏ D ∈ Finset.powersetCard Ndown (Finset.univ : Finset κ),
        (Polynomial.X - Polynomial.C ((x + ∑ k ∈ D, b k : ℝ) : ℂ)) := fun x => by
    rw [prod_choices Ndown a fun y => Polynomial.X - Polynomial.C ((x + y : ℝ) : ℂ),
      prod_choices Ndown b fun y => Polynomial.X - Polynomial.C ((x + y : ℝ) : ℂ), hm]
  simp only [ha]
  rw [prod_choices Nup a fun x => ∏ D ∈ Finset.powersetCard Ndown (Finset.univ : Finset κ),
        (Polynomial.X - Polynomial.C ((x + ∑ k ∈ D, b k : ℝ) : ℂ)),
    prod_choices Nup b fun x => ∏ D ∈ Finset.powersetCard Ndown (Finset.univ : Finset κ),
        (Polynomial.X - Polynomial.C ((x + ∑ k ∈ D, b k : ℝ) : ℂ)), hm]

/-- From the levels of the hopping matrix to the energies of the script. -/
theorem freeLevels_of {m count : ℕ} {d : ℝ} {points : Fin count → Pt m} {run : ℝ → ℝ → ℕ → ℕ → Option (Py Setup)}
    (h : FreeLimit d points run) {ι κ : Type} [Fintype ι] [DecidableEq ι] [Fintype κ] [DecidableEq κ] (e : ι ≃ Fin count)
    (H : ℝ → Matrix ι ι ℂ) (hH : ∀ t i j, clusterHopping d points t (e i) (e j) = H t i j) (level : ℝ → κ → ℝ)
    (hS : ∀ t, Solved (H t) (level t)) : FreeLevels count level run := by
  intro t Nup Ndown hu hd
  obtain ⟨V, hV, hh, hc⟩ := h t Nup Ndown hu hd
  refine ⟨V, hV, hc.trans (levels_congr ?_ Nup Ndown)⟩
  rw [← (hS t).charpoly, ← Matrix.charpoly_reindex e (H t)]
  have : Matrix.reindex e e (H t) = clusterHopping d points t := by
    ext i j
    rw [Matrix.reindex_apply, Matrix.submatrix_apply, ← hH, e.apply_symm_apply, e.apply_symm_apply]
  rw [this, hh.charpoly_eq]
  rfl

/-! ### Boxes -/

section box

variable {ι ι' : Type}

/-- `s` is a square distance that tells different elements apart. -/
def SqDist (s : ι → ι → ℤ) : Prop := (∀ i j, 0 ≤ s i j) ∧ ∀ i j, s i j = 0 ↔ i = j

/-- Hopping at square distance one. -/
def unitHop (s : ι → ι → ℤ) (t : ℝ) : Matrix ι ι ℂ := .of fun i j => if s i j = 1 then (t : ℂ) else 0

/-- The square distance of two numbers. -/
def lineSq (n : ℕ) (i j : Fin n) : ℤ := ((i : ℤ) - (j : ℤ)) ^ 2

/-- Pythagoras. -/
def sumSq (s : ι → ι → ℤ) (s' : ι' → ι' → ℤ) (p q : ι × ι') : ℤ := s p.1 q.1 + s' p.2 q.2

theorem sqDist_line (n : ℕ) : SqDist (lineSq n) := by
  refine ⟨fun i j => sq_nonneg _, fun i j => ?_⟩
  rw [lineSq, sq_eq_zero_iff, Fin.ext_iff]
  omega

theorem SqDist.sum {s : ι → ι → ℤ} {s' : ι' → ι' → ℤ} (h : SqDist s) (h' : SqDist s') : SqDist (sumSq s s') := by
  refine ⟨fun i j => add_nonneg (h.1 _ _) (h'.1 _ _), ?_⟩
  rintro ⟨i, i'⟩ ⟨j, j'⟩
  rw [Prod.mk.injEq, ← h.2, ← h'.2]
  simp only [sumSq]
  have := h.1 i j
  have := h'.1 i' j'
  omega

theorem sq_one_iff (x : ℤ) : x ^ 2 = 1 ↔ x = 1 ∨ x = -1 := by
  constructor
  · intro h
    have : (x - 1) * (x + 1) = 0 := by linarith
    rcases mul_eq_zero.1 this with a | a <;> omega
  · rintro (rfl | rfl) <;> norm_num

theorem unitHop_line (n : ℕ) (t : ℝ) : unitHop (lineSq n) t = pathMatrix n t := by
  ext i j
  simp only [unitHop, pathMatrix, Matrix.of_apply, lineSq]
  congr 1
  rw [eq_iff_iff, sq_one_iff]
  omega

theorem unitHop_sum [DecidableEq ι] [DecidableEq ι'] {s : ι → ι → ℤ} {s' : ι' → ι' → ℤ} (h : SqDist s) (h' : SqDist s')
    (t : ℝ) : unitHop (sumSq s s') t = kronSum (unitHop s t) (unitHop s' t) := by
  ext ⟨i, i'⟩ ⟨j, j'⟩
  simp only [unitHop, kronSum, Matrix.of_apply, ← h.2, ← h'.2]
  have h1 := h.1 i j
  have h2 := h'.1 i' j'
  have h3 : sumSq s s' (i, i') (j, j') = s i j + s' i' j' := rfl
  by_cases a : s i j = 0
  · by_cases b : s' i' j' = 0
    · rw [if_neg (by omega), if_pos b, if_neg (by omega), if_pos a, if_neg (by omega), add_zero]
    · rw [if_neg b, if_pos a, zero_add]
      congr 1
      rw [eq_iff_iff]
      omega
  · by_cases b : s' i' j' = 0
    · rw [if_pos b, if_neg a, add_zero]
      congr 1
      rw [eq_iff_iff]
      omega
    · rw [if_neg (by omega), if_neg b, if_neg a, add_zero]

theorem hopping_eq {m count : ℕ} {points : Fin count → Pt m} (e : ι ≃ Fin count) {s : ι → ι → ℤ} (h : SqDist s)
    (hd : ∀ i j, ∑ a, (points (e i) a - points (e j) a) ^ 2 = (s i j : ℝ)) (t : ℝ) (i j : ι) :
    clusterHopping 1 points t (e i) (e j) = unitHop s t i j := by
  have key : (e i ≠ e j ∧ ndist (points (e i)) (points (e j)) = 1) ↔ s i j = 1 := by
    rw [ndist, hd, Real.sqrt_eq_one, Ne, e.apply_eq_iff_eq, ← h.2]
    have : ((s i j : ℤ) : ℝ) = 1 ↔ s i j = 1 := by exact_mod_cast Iff.rfl
    rw [this]
    omega
  simp only [clusterHopping, unitHop, Matrix.of_apply]
  by_cases a : s i j = 1
  · rw [if_pos a, if_pos (key.2 a)]
  · rw [if_neg a, if_neg (key.not.2 a)]

end box

/-! ### The ring of six -/

/-- Hopping around a ring of six. -/
def ringMatrix (t : ℝ) : Matrix (Fin 6) (Fin 6) ℂ :=
  .of fun i j => if j = i + 1 ∨ i = j + 1 then (t : ℂ) else 0

theorem solved_ring (t : ℝ) : Solved (ringMatrix t) fun k : Fin 6 => 2 * t * Real.cos (Real.pi * k / 3) := by
  have hz := Complex.isPrimitiveRoot_exp 6 (by norm_num)
  set z := Complex.exp (2 * Real.pi * Complex.I / (6 : ℕ)) with hz'
  refine ⟨⟨Equiv.refl _⟩, fun k i => (z ^ (k : ℕ)) ^ (i : ℕ), ?_, ?_⟩
  · have h1 : (Matrix.vandermonde fun k : Fin 6 => z ^ (k : ℕ)).det ≠ 0 := by
      rw [Matrix.det_vandermonde_ne_zero_iff]
      intro a b hab
      exact Fin.ext (hz.pow_inj a.2 b.2 hab)
    exact Matrix.linearIndependent_rows_iff_isUnit.2
      ((Matrix.isUnit_iff_isUnit_det _).2 (isUnit_iff_ne_zero.2 h1))
  · intro k i
    set w := z ^ (k : ℕ) with hw
    have h6 : w ^ 6 = 1 := by rw [hw, ← pow_mul, mul_comm, pow_mul, hz.pow_eq_one, one_pow]
    have hE : ((2 * t * Real.cos (Real.pi * k / 3) : ℝ) : ℂ) = t * (w + w ^ 5) := by
      have e1 : w = Complex.exp ((Real.pi * k / 3 : ℝ) * Complex.I) := by
        rw [hw, hz', ← Complex.exp_nat_mul]
        congr 1
        push_cast
        ring
      have e2 : w ^ 5 = Complex.exp (-((Real.pi * k / 3 : ℝ) * Complex.I)) := by
        rw [Complex.exp_neg, ← e1]
        refine eq_inv_of_mul_eq_one_left ?_
        rw [← pow_succ, h6]
      have e3 := Complex.two_cos ((Real.pi * k / 3 : ℝ) : ℂ)
      rw [e2, e1]
      push_cast at e3 ⊢
      rw [neg_mul] at e3
      rw [← e3]
      ring
    rw [hE]
    dsimp only
    rw [← hw]
    clear_value w
    fin_cases i <;> simp [Fin.sum_univ_six, ringMatrix]
    · ring
    · linear_combination (-(t : ℂ)) * h6
    · linear_combination (-(t : ℂ) * w) * h6
    · linear_combination (-(t : ℂ) * w ^ 2) * h6
    · linear_combination (-(t : ℂ) * w ^ 3) * h6
    · linear_combination (-(t : ℂ) * (1 + w ^ 4)) * h6

/-- The square distances in a ring of six, in units of one third. -/
def ringSq (i j : Fin 6) : ℕ :=
  (![![0, 1, 3, 4, 3, 1], ![1, 0, 1, 3, 4, 3], ![3, 1, 0, 1, 3, 4], ![4, 3, 1, 0, 1, 3], ![3, 4, 3, 1, 0, 1],
    ![1, 3, 4, 3, 1, 0]] : Fin 6 → Fin 6 → ℕ) i j

theorem ringSq_one : ∀ i j : Fin 6, (i ≠ j ∧ ringSq i j = 1) ↔ (j = i + 1 ∨ i = j + 1) := by decide

theorem benzene_sq (i j : Fin 6) : ∑ a, ((honeycombBenzene.points.get i : Pt 2) a - (honeycombBenzene.points.get j : Pt 2) a) ^ 2 =
    (ringSq i j : ℝ) / 3 := by
  have h3 : r3 * r3 = 3 := r3_sq
  have hi : r3⁻¹ = r3 / 3 := by
    have : r3 ≠ 0 := by intro h; rw [h] at h3; norm_num at h3
    field_simp
    linarith
  rw [Fin.sum_univ_two]
  fin_cases i <;> fin_cases j <;> simp [honeycombBenzene, ringSq, div_eq_mul_inv, hi] <;> first | nlinarith [h3] | norm_num

theorem benzene_hopping {points : Fin 6 → Pt 2} (h : ∀ i : Fin 6, points i = honeycombBenzene.points.get i) (t : ℝ)
    (i j : Fin 6) : clusterHopping (1 / Real.sqrt 3) points t i j = ringMatrix t i j := by
  have key : (i ≠ j ∧ ndist (points i) (points j) = 1 / Real.sqrt 3) ↔ (j = i + 1 ∨ i = j + 1) := by
    rw [← ringSq_one, h i, h j, ndist, benzene_sq, show (1 / Real.sqrt 3) = Real.sqrt (1 / 3) by
      rw [Real.sqrt_div zero_le_one, Real.sqrt_one], Real.sqrt_inj (by positivity) (by norm_num)]
    have : ((ringSq i j : ℕ) : ℝ) / 3 = 1 / 3 ↔ ringSq i j = 1 := by
      constructor
      · intro h
        have : ((ringSq i j : ℕ) : ℝ) = 1 := by linarith
        exact_mod_cast this
      · intro h; rw [h]; norm_num
    rw [this]
  simp only [clusterHopping, ringMatrix, Matrix.of_apply]
  by_cases a : j = i + 1 ∨ i = j + 1
  · rw [if_pos a, if_pos (key.2 a)]
  · rw [if_neg a, if_neg (key.not.2 a)]

end Verif.LDB
