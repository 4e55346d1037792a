import Verif.Spec.Schwinger
import Verif.Proofs.SpinAlgebra
import Verif.Proofs.Fock
import Verif.Proofs.Bits
import Verif.Proofs.MatrixTerm
import Verif.Proofs.HilbertSpace
import Mathlib.Algebra.Module.BigOperators
import Batteries.Data.Nat.Lemmas
/-! Fock-space side of the Schwinger representation. -/

namespace Verif
open Spec

theorem fin2_cases (s : Fin 2) : s = 0 ∨ s = 1 := by
  revert s; decide

/-- the occupied states of the spin configuration `a` -/
noncomputable def config (n : ℕ) (pos : ℕ → Fin 2 → ℕ) (a : ℕ) : Finset ℕ :=
  (Finset.range n).image (fun i => pos i (digit a i))

/-- different (site, spin) pairs have different states; up and down of a site are neighbours -/
structure GoodPos (n : ℕ) (pos : ℕ → Fin 2 → ℕ) : Prop where
  inj : ∀ i < n, ∀ j < n, ∀ s t, pos i s = pos j t → i = j ∧ s = t
  adj : ∀ i < n, pos i 0 = pos i 1 + 1 ∨ pos i 1 = pos i 0 + 1

variable {n : ℕ} {pos : ℕ → Fin 2 → ℕ}

theorem mem_config (h : GoodPos n pos) {a i : ℕ} (hi : i < n) (s : Fin 2) :
    pos i s ∈ config n pos a ↔ digit a i = s := by
  unfold config
  simp only [Finset.mem_image, Finset.mem_range]
  constructor
  · rintro ⟨j, hj, he⟩
    obtain ⟨rfl, rfl⟩ := h.inj j hj i hi _ _ he
    rfl
  · rintro rfl
    exact ⟨i, hi, rfl⟩

theorem config_injective (h : GoodPos n pos) {a b : ℕ} (ha : a < 2 ^ n) (hb : b < 2 ^ n)
    (he : config n pos a = config n pos b) : a = b := by
  apply eq_of_digits n a b ha hb
  intro j hj
  have := (mem_config h (a := a) hj (digit a j)).mpr rfl
  rw [he, mem_config h hj] at this
  exact this.symm

theorem jwSign_adjacent {x y : ℕ} {E : Finset ℕ} (hx : x ∉ E) (hy : y ∉ E)
    (h : x = y ∨ x = y + 1 ∨ y = x + 1) : jwSign x E = jwSign y E := by
  unfold jwSign
  congr 2
  apply Finset.filter_congr
  intro z hz
  have h1 : z ≠ x := fun e => hx (e ▸ hz)
  have h2 : z ≠ y := fun e => hy (e ▸ hz)
  omega

/-- moving the fermion of site `i` from spin `t` to spin `s` -/
theorem pair_config (h : GoodPos n pos) {i : ℕ} (hi : i < n) (s t : Fin 2) (b : Fin (2 ^ n)) :
    (create (pos i s) * annihilate (pos i t)) (ket (config n pos b)) =
      if digit b i = t then ket (config n pos (setDigit n b i s)) else 0 := by
  rw [Module.End.mul_apply, annihilate_ket]
  by_cases ht : digit b i = t
  · rw [if_pos ((mem_config h hi t).mpr ht), if_pos ht, map_smul, create_ket]
    have hns : pos i s ∉ (config n pos b).erase (pos i t) := by
      rw [Finset.mem_erase, mem_config h hi]
      rintro ⟨h1, h2⟩
      apply h1
      rw [← h2, ht]
    rw [if_neg hns, smul_smul, ← jwSign_erase_self (pos i t),
      jwSign_adjacent (Finset.notMem_erase _ _) hns, jwSign_sq, one_smul]
    · congr 1
      ext x
      rw [Finset.mem_insert, Finset.mem_erase]
      unfold config
      simp only [Finset.mem_image, Finset.mem_range]
      constructor
      · rintro (rfl | ⟨hx, j, hj, rfl⟩)
        · exact ⟨i, hi, by rw [digit_setDigit_self]⟩
        · have hji : j ≠ i := by
            rintro rfl
            rw [ht] at hx
            exact hx rfl
          exact ⟨j, hj, by rw [digit_setDigit_ne n b i j s hji]⟩
      · rintro ⟨j, hj, rfl⟩
        by_cases hji : j = i
        · subst hji
          left
          rw [digit_setDigit_self]
        · right
          rw [digit_setDigit_ne n b i j s hji]
          refine ⟨?_, j, hj, rfl⟩
          intro he
          exact hji (h.inj _ hj _ hi _ _ he).1
    · have := h.adj i hi
      rcases fin2_cases s with hs | hs <;> rcases fin2_cases t with ht | ht <;> rw [hs, ht] <;> omega
  · rw [if_neg (fun e => ht ((mem_config h hi t).mp e)), if_neg ht, map_zero]

/-- the Fock operator acts on the spin configurations as the matrix `A` -/
def Acts (n : ℕ) (pos : ℕ → Fin 2 → ℕ) (O : Module.End ℂ Fock)
    (A : Matrix (Fin (2 ^ n)) (Fin (2 ^ n)) ℂ) : Prop :=
  ∀ b : Fin (2 ^ n), O (ket (config n pos b)) = ∑ a, A a b • ket (config n pos a)

theorem Acts.one : Acts n pos 1 1 := by
  intro b
  rw [Finset.sum_eq_single b]
  · simp
  · intro c _ hc
    simp [hc]
  · simp

theorem Acts.mul {O P : Module.End ℂ Fock} {A B : Matrix (Fin (2 ^ n)) (Fin (2 ^ n)) ℂ}
    (h : Acts n pos O A) (h' : Acts n pos P B) : Acts n pos (O * P) (A * B) := by
  intro b
  rw [Module.End.mul_apply, h' b, map_sum]
  simp only [map_smul, h _, Finset.smul_sum, smul_smul, Matrix.mul_apply, Finset.sum_smul]
  rw [Finset.sum_comm]
  simp only [mul_comm]

theorem Acts.smul {O : Module.End ℂ Fock} {A : Matrix (Fin (2 ^ n)) (Fin (2 ^ n)) ℂ}
    (h : Acts n pos O A) (c : ℂ) : Acts n pos (c • O) (c • A) := by
  intro b
  rw [LinearMap.smul_apply, h b, Finset.smul_sum]
  simp only [smul_smul, Matrix.smul_apply, smul_eq_mul]

theorem Acts.prod {ι : Type _} (l : List ι) (O : ι → Module.End ℂ Fock)
    (A : ι → Matrix (Fin (2 ^ n)) (Fin (2 ^ n)) ℂ) (h : ∀ x ∈ l, Acts n pos (O x) (A x)) :
    Acts n pos (l.map O).prod (l.map A).prod := by
  induction l with
  | nil => exact Acts.one
  | cons x l ih =>
    simp only [List.map_cons, List.prod_cons]
    exact (h x (by simp)).mul (ih (fun y hy => h y (by simp [hy])))

/-- the fermion bilinear of a one-spin matrix -/
noncomputable def bilinear (pos : ℕ → Fin 2 → ℕ) (i : ℕ) (A : Matrix (Fin 2) (Fin 2) ℂ) :
    Module.End ℂ Fock :=
  ∑ s, ∑ t, A s t • (create (pos i s) * annihilate (pos i t))

theorem bilinear_acts (h : GoodPos n pos) {i : ℕ} (hi : i < n) (A : Matrix (Fin 2) (Fin 2) ℂ) :
    Acts n pos (bilinear pos i A) (siteOp n i A) := by
  intro b
  unfold bilinear
  simp only [LinearMap.sum_apply, LinearMap.smul_apply, pair_config h hi, smul_ite, smul_zero,
    Finset.sum_ite_eq, Finset.mem_univ, if_true]
  have hcol := fun a : Fin (2 ^ n) => mul_siteOp n i hi 1 A a b
  simp only [Matrix.one_mul] at hcol
  simp only [hcol, Finset.sum_smul]
  rw [Finset.sum_comm]
  apply Finset.sum_congr rfl
  intro s _
  rw [Finset.sum_eq_single ⟨setDigit n b i s, setDigit_lt n b i hi s⟩]
  · simp
  · intro c _ hc
    rw [Matrix.one_apply_ne hc]
    simp
  · simp

/-- one pair per operator -/
def pairs (pos : ℕ → Fin 2 → ℕ) (l : List (ℕ × Fin 2 × Fin 2)) : List (ℤ × Otype) :=
  l.flatMap fun p => [((pos p.1 p.2.1 : ℤ), .creation), ((pos p.1 p.2.2 : ℤ), .annihilation)]

/-- a product of such pairs maps a configuration to a configuration or to zero -/
theorem pairs_config (h : GoodPos n pos) (l : List (ℕ × Fin 2 × Fin 2)) (hl : ∀ p ∈ l, p.1 < n)
    (b : Fin (2 ^ n)) :
    termOperator (pairs pos l) (ket (config n pos b)) = 0 ∨
    ∃ a : Fin (2 ^ n), termOperator (pairs pos l) (ket (config n pos b)) = ket (config n pos a) := by
  induction l with
  | nil => right; exact ⟨b, by simp [pairs, termOperator, fockProduct]⟩
  | cons p l ih =>
    have hstep : termOperator (pairs pos (p :: l)) =
        (create (pos p.1 p.2.1) * annihilate (pos p.1 p.2.2)) * termOperator (pairs pos l) := by
      simp only [pairs, List.flatMap_cons, termOperator_append]
      congr 1
    rw [hstep, Module.End.mul_apply]
    rcases ih (fun q hq => hl q (by simp [hq])) with h0 | ⟨a, ha⟩
    · left; rw [h0, map_zero]
    · rw [ha, pair_config h (hl p (by simp))]
      split
      · right
        exact ⟨⟨_, setDigit_lt n a p.1 (hl p (by simp)) p.2.1⟩, rfl⟩
      · left; rfl

/-- the configuration number of a bit pattern with one fermion per site -/
theorem config_of_onePerSite {k : ℕ} (hk : OnePerSite n pos k) :
    ∃ a : Fin (2 ^ n), occ k = config n pos a ∧ SpinsOf n pos k a := by
  obtain ⟨a, ha⟩ : ∃ a : Fin (2 ^ n), ∀ i < n, a.1.testBit i = k.testBit (pos i 1) := by
    refine ⟨⟨Nat.ofBits (n := n) fun i => k.testBit (pos i 1), Nat.ofBits_lt_two_pow _⟩, ?_⟩
    intro i hi
    simp [Nat.testBit_ofBits_lt _ _ hi]
  have hd : ∀ i < n, k.testBit (pos i (digit a i)) = true := by
    intro i hi
    have h1 := hk.2 i hi
    have h2 := ha i hi
    have h3 : (digit a.1 i = 1) ↔ a.1.testBit i = true := by
      have := digit_eq_iff a.1 1 i 0
      have h4 : digit 1 0 = 1 := by decide
      rw [h4] at this
      simpa using this
    by_cases hb : a.1.testBit i = true
    · rw [h3.mpr hb, ← h2, hb]
    · have : digit a.1 i = 0 := by
        have : digit a.1 i ≠ 1 := fun e => hb (h3.mp e)
        revert this
        generalize digit a.1 i = u
        revert u
        decide
      rw [this]
      rw [h2] at hb
      revert h1 hb
      cases k.testBit (pos i 0) <;> cases k.testBit (pos i 1) <;> simp
  refine ⟨a, ?_, hd⟩
  ext x
  rw [mem_occ]
  unfold config
  simp only [Finset.mem_image, Finset.mem_range]
  constructor
  · intro hx
    obtain ⟨i, hi, hxi⟩ := hk.1 x hx
    refine ⟨i, hi, ?_⟩
    have h1 := hk.2 i hi
    have h2 := hd i hi
    rcases fin2_cases (digit a.1 i) with e | e <;> rw [e] at h2 ⊢ <;>
      rcases hxi with rfl | rfl
    · rfl
    · rw [h2, hx] at h1; exact absurd rfl h1
    · rw [h2, hx] at h1; exact absurd rfl h1
    · rfl
  · rintro ⟨i, hi, rfl⟩
    exact hd i hi

theorem onePerSite_of_config (h : GoodPos n pos) {k : ℕ} {a : ℕ}
    (hk : occ k = config n pos a) : OnePerSite n pos k := by
  have hm : ∀ x, k.testBit x = true ↔ x ∈ config n pos a := by
    intro x; rw [← hk, mem_occ]
  constructor
  · intro x hx
    rw [hm] at hx
    unfold config at hx
    simp only [Finset.mem_image, Finset.mem_range] at hx
    obtain ⟨i, hi, rfl⟩ := hx
    refine ⟨i, hi, ?_⟩
    rcases fin2_cases (digit a i) with e | e <;> rw [e]
    · left; rfl
    · right; rfl
  · intro i hi he
    have h0 := hm (pos i 0)
    have h1 := hm (pos i 1)
    rw [mem_config h hi] at h0 h1
    rw [he, h1] at h0
    revert h0
    generalize digit a i = u
    revert u
    decide

theorem config_of_spins (h : GoodPos n pos) {k : ℕ} (hk : OnePerSite n pos k) {a : ℕ} (ha : a < 2 ^ n)
    (hs : SpinsOf n pos k a) : occ k = config n pos a := by
  obtain ⟨b, hb, hsb⟩ := config_of_onePerSite hk
  rw [hb]
  congr 1
  apply eq_of_digits n _ _ b.2 ha
  intro j hj
  have h1 := hs j hj
  rw [← mem_occ, hb, mem_config h hj] at h1
  exact h1

end Verif
