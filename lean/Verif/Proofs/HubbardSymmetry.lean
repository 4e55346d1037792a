import Verif.Proofs.HubbardCluster
import Verif.Proofs.FreeFermion
import Verif.Proofs.Su2
import Mathlib.Algebra.Group.Semiconj.Basic
import Mathlib.Algebra.Ring.Semiconj
import Mathlib.Tactic.NoncommRing
import Mathlib.LinearAlgebra.Matrix.Charpoly.Basic
/-!
# Lemmas for C116: symmetries of the Hubbard model
-/

namespace Verif.LDB

open Verif.Latt Verif.Spec Demo

section ring

variable {R : Type*} [Ring R]

/-- Exchange of two modes. -/
theorem ring_swap {a b c d : R} (hac : c * a + a * c = 1) (hbd : d * b + b * d = 1) (had : d * a + a * d = 0)
    (hbc : c * b + b * c = 0) (haa : a * a = 0) (hbb : b * b = 0) (hcc : c * c = 0) (hdd : d * d = 0)
    (hab : a * b + b * a = 0) (hcd : c * d + d * c = 0) :
    (1 - (a - b) * (c - d)) * (1 - (a - b) * (c - d)) = 1 ∧
    SemiconjBy (1 - (a - b) * (c - d)) a b ∧ SemiconjBy (1 - (a - b) * (c - d)) b a ∧
    SemiconjBy (1 - (a - b) * (c - d)) c d ∧ SemiconjBy (1 - (a - b) * (c - d)) d c := by
  set D := c - d with hD
  set A := a - b with hA
  have h1 : D * A = 1 + 1 - A * D := by
    rw [hD, hA]
    linear_combination (norm := noncomm_ring) hac + hbd - had - hbc
  have h2 : A * A = 0 := by
    rw [hA]
    linear_combination (norm := noncomm_ring) haa + hbb - hab
  have h3 : D * D = 0 := by
    rw [hD]
    linear_combination (norm := noncomm_ring) hcc + hdd - hcd
  have h4 : D * a = 1 - a * D := by
    rw [hD]
    linear_combination (norm := noncomm_ring) hac - had
  have h5 : D * b = -1 - b * D := by
    rw [hD]
    linear_combination (norm := noncomm_ring) hbc - hbd
  have h6 : A * a = - (a * A) := by
    rw [hA]
    linear_combination (norm := noncomm_ring) 2 * haa - hab
  have h7 : A * b = - (b * A) := by
    rw [hA]
    linear_combination (norm := noncomm_ring) hab - 2 * hbb
  have h8 : c * A = 1 - A * c := by
    rw [hA]
    linear_combination (norm := noncomm_ring) hac - hbc
  have h9 : d * A = -1 - A * d := by
    rw [hA]
    linear_combination (norm := noncomm_ring) had - hbd
  have h10 : D * c = - (c * D) := by
    rw [hD]
    linear_combination (norm := noncomm_ring) 2 * hcc - hcd
  have h11 : D * d = - (d * D) := by
    rw [hD]
    linear_combination (norm := noncomm_ring) hcd - 2 * hdd
  have eA : a = b + A := by rw [hA]; abel
  have eD : c = d + D := by rw [hD]; abel
  refine ⟨?_, ?_, ?_, ?_, ?_⟩
  · linear_combination (norm := noncomm_ring) A * h1 * D - h2 * D * D
  · change (1 - A * D) * a = b * (1 - A * D)
    linear_combination (norm := noncomm_ring) eA - A * h4 + h6 * D - eA * A * D - h2 * D
  · change (1 - A * D) * b = a * (1 - A * D)
    linear_combination (norm := noncomm_ring) - eA - A * h5 + h7 * D + eA * A * D + h2 * D
  · change (1 - A * D) * c = d * (1 - A * D)
    linear_combination (norm := noncomm_ring) eD - A * h10 + h9 * D + A * eD * D + A * h3
  · change (1 - A * D) * d = c * (1 - A * D)
    linear_combination (norm := noncomm_ring) - eD - A * h11 + h8 * D - A * eD * D - A * h3

/-- The modes that are not exchanged. -/
theorem ring_swap_other {a b c d x : R} (ha : a * x = - (x * a)) (hb : b * x = - (x * b)) (hc : c * x = - (x * c))
    (hd : d * x = - (x * d)) : SemiconjBy (1 - (a - b) * (c - d)) x x := by
  change (1 - (a - b) * (c - d)) * x = x * (1 - (a - b) * (c - d))
  linear_combination (norm := noncomm_ring) - (a - b) * hc + (a - b) * hd + ha * (c - d) - hb * (c - d)

/-- Particle and hole of one mode. -/
theorem ring_hole {a c : R} (hac : c * a + a * c = 1) (haa : a * a = 0) (hcc : c * c = 0) :
    (a + c) * (a + c) = 1 ∧ SemiconjBy (a + c) a c ∧ SemiconjBy (a + c) c a := by
  refine ⟨?_, ?_, ?_⟩
  · linear_combination (norm := noncomm_ring) hac + haa + hcc
  · change (a + c) * a = c * (a + c)
    linear_combination (norm := noncomm_ring) haa - hcc
  · change (a + c) * c = a * (a + c)
    linear_combination (norm := noncomm_ring) hcc - haa

theorem ring_hole_other {a c x : R} (ha : a * x = - (x * a)) (hc : c * x = - (x * c)) : SemiconjBy (a + c) x (-x) := by
  change (a + c) * x = -x * (a + c)
  linear_combination (norm := noncomm_ring) ha + hc

/-- The sign of one mode. -/
theorem ring_sign {a c : R} (hac : c * a + a * c = 1) (haa : a * a = 0) (hcc : c * c = 0) :
    (1 - (a * c + a * c)) * (1 - (a * c + a * c)) = 1 ∧ SemiconjBy (1 - (a * c + a * c)) a (-a) ∧
    SemiconjBy (1 - (a * c + a * c)) c (-c) := by
  refine ⟨?_, ?_, ?_⟩
  · linear_combination (norm := noncomm_ring) 4 * (a * hac * c) - 4 * (haa * c * c)
  · change (1 - (a * c + a * c)) * a = -a * (1 - (a * c + a * c))
    linear_combination (norm := noncomm_ring) - 2 * (a * hac) + 2 * (haa * c) - 2 * (haa * c)
  · change (1 - (a * c + a * c)) * c = -c * (1 - (a * c + a * c))
    linear_combination (norm := noncomm_ring) - 2 * (a * hcc) - 2 * (hac * c) + 2 * (a * hcc)

theorem ring_sign_other {a c x : R} (ha : a * x = - (x * a)) (hc : c * x = - (x * c)) :
    SemiconjBy (1 - (a * c + a * c)) x x := by
  change (1 - (a * c + a * c)) * x = x * (1 - (a * c + a * c))
  linear_combination (norm := noncomm_ring) - 2 * (a * hc) + 2 * (ha * c)

end ring

/-! ### Transformations of the modes -/

section modes

variable {R : Type*} [Ring R] [Algebra ℂ R] {c a : ℕ → R}

/-- The anticommutation relations. -/
structure Car (c a : ℕ → R) : Prop where
  cc : ∀ p q, c p * c q + c q * c p = 0
  aa : ∀ p q, a p * a q + a q * a p = 0
  ac : ∀ p q, a p * c q + c q * a p = if p = q then 1 else 0

section car

variable (h : Car c a)
include h

theorem Car.c_sq (q : ℕ) : c q * c q = 0 := by
  have h := h.cc q q
  rw [← two_smul ℂ] at h
  have := congrArg (fun x => (2 : ℂ)⁻¹ • x) h
  simpa using this

theorem Car.a_sq (q : ℕ) : a q * a q = 0 := by
  have h := h.aa q q
  rw [← two_smul ℂ] at h
  have := congrArg (fun x => (2 : ℂ)⁻¹ • x) h
  simpa using this

theorem Car.self (q : ℕ) : a q * c q + c q * a q = 1 := by
  rw [h.ac, if_pos rfl]

theorem Car.ne {p q : ℕ} (hne : p ≠ q) : a p * c q + c q * a p = 0 := by
  rw [h.ac, if_neg hne]

theorem Car.cc_neg (p q : ℕ) : c p * c q = - (c q * c p) := eq_neg_of_add_eq_zero_left (h.cc p q)

theorem Car.aa_neg (p q : ℕ) : a p * a q = - (a q * a p) := eq_neg_of_add_eq_zero_left (h.aa p q)

theorem Car.ac_neg {p q : ℕ} (hne : p ≠ q) : a p * c q = - (c q * a p) := eq_neg_of_add_eq_zero_left (h.ne hne)

theorem Car.ca_neg {p q : ℕ} (hne : p ≠ q) : c p * a q = - (a q * c p) :=
  eq_neg_of_add_eq_zero_right (h.ne hne.symm)

end car

/-- An invertible element that transforms the modes to `C` and `A`. -/
def Transforms (c a : ℕ → R) (W W' : R) (C A : ℕ → R) : Prop :=
  W * W' = 1 ∧ W' * W = 1 ∧ ∀ q, SemiconjBy W (c q) (C q) ∧ SemiconjBy W (a q) (A q)

theorem transforms_one : Transforms c a 1 1 c a :=
  ⟨one_mul 1, one_mul 1, fun _ => ⟨SemiconjBy.one_left _, SemiconjBy.one_left _⟩⟩

/-- One more factor. -/
theorem Transforms.cons {W W' Y : R} {C A C' A' : ℕ → R} (h : Transforms c a W W' C A) (hY : Y * Y = 1)
    (h' : ∀ q, SemiconjBy Y (C q) (C' q) ∧ SemiconjBy Y (A q) (A' q)) : Transforms c a (Y * W) (W' * Y) C' A' := by
  obtain ⟨h1, h2, h3⟩ := h
  refine ⟨?_, ?_, fun q => ⟨(h' q).1.mul_left (h3 q).1, (h' q).2.mul_left (h3 q).2⟩⟩
  · rw [mul_assoc, ← mul_assoc W, h1, one_mul, hY]
  · rw [mul_assoc, ← mul_assoc Y, hY, one_mul, h2]

theorem semiconj_smul {W x y : R} (h : SemiconjBy W x y) (z : ℂ) : SemiconjBy W (z • x) (z • y) := by
  change W * (z • x) = z • y * W
  rw [mul_smul_comm, smul_mul_assoc, h.eq]

theorem semiconj_sum {ι : Type*} {s : Finset ι} {W : R} {f g : ι → R} (h : ∀ i ∈ s, SemiconjBy W (f i) (g i)) :
    SemiconjBy W (∑ i ∈ s, f i) (∑ i ∈ s, g i) := by
  change W * _ = _ * W
  rw [Finset.mul_sum, Finset.sum_mul]
  exact Finset.sum_congr rfl fun i hi => (h i hi).eq

/-- Particles and holes exchanged in the modes of `P`. -/
theorem Car.exists_hole (h : Car c a) (P : Finset ℕ) : ∃ (W W' : R) (s : ℂ), s * s = 1 ∧ Transforms c a W W'
    (fun q => if q ∈ P then -s • a q else s • c q) (fun q => if q ∈ P then -s • c q else s • a q) := by
  induction P using Finset.induction_on with
  | empty => exact ⟨1, 1, 1, one_mul 1, by simpa using transforms_one⟩
  | insert p P hp ih =>
    obtain ⟨W, W', s, hs, ht⟩ := ih
    obtain ⟨y1, y2, y3⟩ := ring_hole (h.self p) (h.c_sq p) (h.a_sq p)
    refine ⟨_, _, -s, by rw [neg_mul_neg, hs], ht.cons y1 fun q => ?_⟩
    by_cases hq : q = p
    · subst hq
      rw [if_neg hp, if_neg hp, if_pos (Finset.mem_insert_self _ _), if_pos (Finset.mem_insert_self _ _), neg_neg]
      exact ⟨semiconj_smul y2 s, semiconj_smul y3 s⟩
    · have e1 : SemiconjBy (c p + a p) (c q) (-c q) := ring_hole_other (h.cc_neg p q) (h.ac_neg (Ne.symm hq))
      have e2 : SemiconjBy (c p + a p) (a q) (-a q) := ring_hole_other (h.ca_neg (Ne.symm hq)) (h.aa_neg p q)
      have f1 : ∀ z : ℂ, SemiconjBy (c p + a p) (z • c q) (-z • c q) := fun z => by
        have := semiconj_smul e1 z
        rwa [smul_neg, ← neg_smul] at this
      have f2 : ∀ z : ℂ, SemiconjBy (c p + a p) (z • a q) (-z • a q) := fun z => by
        have := semiconj_smul e2 z
        rwa [smul_neg, ← neg_smul] at this
      by_cases hP : q ∈ P
      · rw [if_pos hP, if_pos hP, if_pos (Finset.mem_insert_of_mem hP), if_pos (Finset.mem_insert_of_mem hP)]
        exact ⟨f2 (-s), f1 (-s)⟩
      · have hn : q ∉ insert p P := by simp [hq, hP]
        rw [if_neg hP, if_neg hP, if_neg hn, if_neg hn]
        exact ⟨f1 s, f2 s⟩

/-- A sign for every mode of `P`. -/
theorem Car.exists_sign (h : Car c a) (P : Finset ℕ) : ∃ W W' : R, Transforms c a W W'
    (fun q => if q ∈ P then -c q else c q) (fun q => if q ∈ P then -a q else a q) := by
  induction P using Finset.induction_on with
  | empty => exact ⟨1, 1, by simpa using transforms_one⟩
  | insert p P hp ih =>
    obtain ⟨W, W', ht⟩ := ih
    obtain ⟨y1, y2, y3⟩ := ring_sign (h.self p) (h.c_sq p) (h.a_sq p)
    refine ⟨_, _, ht.cons y1 fun q => ?_⟩
    by_cases hq : q = p
    · subst hq
      rw [if_neg hp, if_neg hp, if_pos (Finset.mem_insert_self _ _), if_pos (Finset.mem_insert_self _ _)]
      exact ⟨y2, y3⟩
    · have e1 : SemiconjBy (1 - (c p * a p + c p * a p)) (c q) (c q) :=
        ring_sign_other (h.cc_neg p q) (h.ac_neg (Ne.symm hq))
      have e2 : SemiconjBy (1 - (c p * a p + c p * a p)) (a q) (a q) :=
        ring_sign_other (h.ca_neg (Ne.symm hq)) (h.aa_neg p q)
      by_cases hP : q ∈ P
      · rw [if_pos hP, if_pos hP, if_pos (Finset.mem_insert_of_mem hP), if_pos (Finset.mem_insert_of_mem hP)]
        exact ⟨e1.neg_right, e2.neg_right⟩
      · have hn : q ∉ insert p P := by simp [hq, hP]
        rw [if_neg hP, if_neg hP, if_neg hn, if_neg hn]
        exact ⟨e1, e2⟩

/-- The first `l` sites: spin up and spin down exchanged. -/
def swapMode (n l q : ℕ) : ℕ := if q < l then n + q else if n ≤ q ∧ q < n + l then q - n else q

theorem Car.exists_swap (h : Car c a) {n l : ℕ} (hl : l ≤ n) : ∃ W W' : R, Transforms c a W W'
    (fun q => c (swapMode n l q)) (fun q => a (swapMode n l q)) := by
  induction l with
  | zero =>
    have : ∀ q, swapMode n 0 q = q := fun q => by unfold swapMode; split_ifs <;> omega
    exact ⟨1, 1, by simpa only [this] using transforms_one⟩
  | succ l ih =>
    obtain ⟨W, W', ht⟩ := ih (by omega)
    have hne : l ≠ n + l := by omega
    obtain ⟨y1, y2, y3, y4, y5⟩ := ring_swap (h.self l) (h.self (n + l)) (h.ne hne.symm) (h.ne hne) (h.c_sq _)
      (h.c_sq _) (h.a_sq _) (h.a_sq _) (h.cc _ _) (h.aa _ _)
    refine ⟨_, _, ht.cons y1 fun q => ?_⟩
    by_cases h1 : q = l
    · have e1 : swapMode n l q = l := by unfold swapMode; split_ifs <;> omega
      have e2 : swapMode n (l + 1) q = n + l := by unfold swapMode; split_ifs <;> omega
      rw [e1, e2]
      exact ⟨y2, y4⟩
    by_cases h2 : q = n + l
    · have e1 : swapMode n l q = n + l := by unfold swapMode; split_ifs <;> omega
      have e2 : swapMode n (l + 1) q = l := by unfold swapMode; split_ifs <;> omega
      rw [e1, e2]
      exact ⟨y3, y5⟩
    have e1 : swapMode n (l + 1) q = swapMode n l q := by unfold swapMode; split_ifs <;> omega
    have e2 : l ≠ swapMode n l q := by unfold swapMode; split_ifs <;> omega
    have e3 : n + l ≠ swapMode n l q := by unfold swapMode; split_ifs <;> omega
    rw [e1]
    exact ⟨ring_swap_other (h.cc_neg _ _) (h.cc_neg _ _) (h.ac_neg e2) (h.ac_neg e3),
      ring_swap_other (h.ca_neg e2) (h.ca_neg e3) (h.aa_neg _ _) (h.aa_neg _ _)⟩

/-- Double occupancy. -/
def ringPairs (c a : ℕ → R) (n : ℕ) : R := ∑ i : Fin n, c (n + i) * a (n + i) * (c i * a i)

/-- Hopping of spin `s` along `E`. -/
def ringHop (c a : ℕ → R) (n : ℕ) (E : Finset (Fin n × Fin n)) (s : ℕ) : R :=
  ∑ p ∈ E, (c (s * n + p.1) * a (s * n + p.2) + c (s * n + p.2) * a (s * n + p.1))

/-- What a symmetry does to the Hamiltonian and to the occupation numbers. -/
structure Acts (c a : ℕ → R) (n : ℕ) (E : Finset (Fin n × Fin n)) (W W' : R) (I' h0 h1 : R) (num : ℕ → R) : Prop where
  right : W * W' = 1
  left : W' * W = 1
  pairs : SemiconjBy W (ringPairs c a n) I'
  hop0 : SemiconjBy W (ringHop c a n E 0) h0
  hop1 : SemiconjBy W (ringHop c a n E 1) h1
  number : ∀ q, SemiconjBy W (c q * a q) (num q)

theorem Car.number_comm (h : Car c a) {p q : ℕ} (hpq : p ≠ q) : c p * a p * (c q * a q) = c q * a q * (c p * a p) := by
  have h1 := h.ac_neg hpq
  have h2 := h.ac_neg hpq.symm
  have h3 := h.cc_neg p q
  have h4 := h.aa_neg p q
  linear_combination (norm := noncomm_ring) c p * h1 * a q - h3 * a p * a q + c q * c p * h4 - c q * h2 * a p

variable {n : ℕ} {E : Finset (Fin n × Fin n)}

theorem Car.acts_swap (h : Car c a) : ∃ W W', Acts c a n E W W' (ringPairs c a n) (ringHop c a n E 1) (ringHop c a n E 0)
    fun q => c (swapMode n n q) * a (swapMode n n q) := by
  obtain ⟨W, W', h1, h2, h3⟩ := h.exists_swap (n := n) le_rfl
  have e0 : ∀ i : Fin n, swapMode n n (0 * n + i) = 1 * n + i := fun i => by
    unfold swapMode
    have := i.2
    split_ifs <;> omega
  have e1 : ∀ i : Fin n, swapMode n n (1 * n + i) = 0 * n + i := fun i => by
    unfold swapMode
    have := i.2
    split_ifs <;> omega
  have hb : ∀ p q, SemiconjBy W (c p * a q) (c (swapMode n n p) * a (swapMode n n q)) := fun p q =>
    (h3 p).1.mul_right (h3 q).2
  refine ⟨W, W', h1, h2, semiconj_sum fun i _ => ?_, semiconj_sum fun p _ => ?_, semiconj_sum fun p _ => ?_,
    fun q => hb q q⟩
  · have := (hb (1 * n + i) (1 * n + i)).mul_right (hb (0 * n + i) (0 * n + i))
    rw [e0, e1] at this
    simp only [zero_mul, zero_add, one_mul] at this
    rwa [h.number_comm (p := i) (q := n + i) (by have := i.2; omega)] at this
  · have := (hb (0 * n + p.1) (0 * n + p.2)).add_right (hb (0 * n + p.2) (0 * n + p.1))
    rwa [e0, e0] at this
  · have := (hb (1 * n + p.1) (1 * n + p.2)).add_right (hb (1 * n + p.2) (1 * n + p.1))
    rwa [e1, e1] at this

/-- A sign on one sublattice: of the up modes, or of all. -/
theorem Car.acts_sign (h : Car c a) {colour : Fin n → Bool} (hc : ∀ p ∈ E, colour p.1 ≠ colour p.2) (both : Bool) :
    ∃ W W', Acts c a n E W W' (ringPairs c a n) (if both then - ringHop c a n E 0 else ringHop c a n E 0)
      (- ringHop c a n E 1) fun q => c q * a q := by
  classical
  set P : Finset ℕ := (Finset.univ.filter fun i : Fin n => colour i = true).image (fun i : Fin n => 1 * n + (i : ℕ)) ∪
    if both then (Finset.univ.filter fun i : Fin n => colour i = true).image (fun i : Fin n => 0 * n + (i : ℕ)) else ∅ with hP
  have m1 : ∀ i : Fin n, 1 * n + (i : ℕ) ∈ P ↔ colour i = true := by
    intro i
    rw [hP]
    simp only [Finset.mem_union, Finset.mem_image, Finset.mem_filter, Finset.mem_univ, true_and]
    constructor
    · rintro (⟨j, hj, e⟩ | hm)
      · rwa [show i = j from Fin.ext (by omega)]
      · split at hm
        · obtain ⟨j, -, e⟩ := Finset.mem_image.1 hm
          have := j.2
          omega
        · simp at hm
    · exact fun hi => Or.inl ⟨i, hi, rfl⟩
  have m0 : ∀ i : Fin n, 0 * n + (i : ℕ) ∈ P ↔ both = true ∧ colour i = true := by
    intro i
    rw [hP]
    simp only [Finset.mem_union, Finset.mem_image, Finset.mem_filter, Finset.mem_univ, true_and]
    constructor
    · rintro (⟨j, hj, e⟩ | hm)
      · have := i.2
        omega
      · split at hm
        · rename_i hb
          obtain ⟨j, hj, e⟩ := Finset.mem_image.1 hm
          refine ⟨hb, ?_⟩
          rw [show i = j from Fin.ext (by omega)]
          exact (Finset.mem_filter.1 hj).2
        · simp at hm
    · rintro ⟨hb, hi⟩
      refine Or.inr ?_
      rw [if_pos hb]
      exact Finset.mem_image.2 ⟨i, Finset.mem_filter.2 ⟨Finset.mem_univ _, hi⟩, rfl⟩
  obtain ⟨W, W', h1, h2, h3⟩ := h.exists_sign P
  have same : ∀ p q, (p ∈ P ↔ q ∈ P) → SemiconjBy W (c p * a q) (c p * a q) := by
    intro p q hpq
    have := (h3 p).1.mul_right (h3 q).2
    dsimp only at this
    by_cases hq : q ∈ P
    · rw [if_pos hq, if_pos (hpq.2 hq), neg_mul_neg] at this
      exact this
    · rwa [if_neg hq, if_neg (fun hp => hq (hpq.1 hp))] at this
  have diff : ∀ p q, (p ∈ P ↔ q ∉ P) → SemiconjBy W (c p * a q) (-(c p * a q)) := by
    intro p q hpq
    have := (h3 p).1.mul_right (h3 q).2
    dsimp only at this
    by_cases hq : q ∈ P
    · rwa [if_pos hq, if_neg (fun hp => hpq.1 hp hq), mul_neg] at this
    · rwa [if_neg hq, if_pos (hpq.2 hq), neg_mul] at this
  have hcol : ∀ p ∈ E, (colour p.1 = true ↔ ¬ colour p.2 = true) := fun p hp => by
    have := hc p hp
    cases h : colour p.1 <;> cases h' : colour p.2 <;> simp_all
  refine ⟨W, W', h1, h2, semiconj_sum fun i _ => (same _ _ Iff.rfl).mul_right (same _ _ Iff.rfl), ?_, ?_,
    fun q => same q q Iff.rfl⟩
  · cases both with
    | false =>
      refine semiconj_sum fun p _ => (same _ _ ?_).add_right (same _ _ ?_) <;> rw [m0, m0] <;> simp
    | true =>
      rw [if_pos rfl, ringHop, ← Finset.sum_neg_distrib]
      refine semiconj_sum fun p hp => ?_
      have := hcol p hp
      rw [neg_add]
      refine (diff _ _ ?_).add_right (diff _ _ ?_) <;> rw [m0, m0] <;> simp only [true_and] <;> tauto
  · rw [ringHop, ← Finset.sum_neg_distrib]
    refine semiconj_sum fun p hp => ?_
    have := hcol p hp
    rw [neg_add]
    refine (diff _ _ ?_).add_right (diff _ _ ?_) <;> rw [m1, m1] <;> tauto

/-- Particles and holes of spin up. -/
theorem Car.acts_hole (h : Car c a) (hE : ∀ p ∈ E, p.1 ≠ p.2) : ∃ W W', Acts c a n E W W'
    ((∑ i : Fin n, c i * a i) - ringPairs c a n) (ringHop c a n E 0) (- ringHop c a n E 1)
    fun q => if n ≤ q ∧ q < 2 * n then 1 - c q * a q else c q * a q := by
  obtain ⟨W, W', s, hs, h1, h2, h3⟩ := h.exists_hole (Finset.Ico n (2 * n))
  have hin : ∀ p q, p ∈ Finset.Ico n (2 * n) → q ∈ Finset.Ico n (2 * n) → SemiconjBy W (c p * a q) (a p * c q) := by
    intro p q hp hq
    have := (h3 p).1.mul_right (h3 q).2
    dsimp only at this
    rw [if_pos hp, if_pos hq, smul_mul_smul_comm, neg_mul_neg, hs, one_smul] at this
    exact this
  have hout : ∀ p q, p ∉ Finset.Ico n (2 * n) → q ∉ Finset.Ico n (2 * n) → SemiconjBy W (c p * a q) (c p * a q) := by
    intro p q hp hq
    have := (h3 p).1.mul_right (h3 q).2
    dsimp only at this
    rw [if_neg hp, if_neg hq, smul_mul_smul_comm, hs, one_smul] at this
    exact this
  have i1 : ∀ i : Fin n, 1 * n + (i : ℕ) ∈ Finset.Ico n (2 * n) := fun i =>
    Finset.mem_Ico.2 (by have := i.2; omega)
  have i0 : ∀ i : Fin n, 0 * n + (i : ℕ) ∉ Finset.Ico n (2 * n) := fun i => by
    rw [Finset.mem_Ico]
    have := i.2
    omega
  have hself : ∀ q, a q * c q = 1 - c q * a q := fun q => eq_sub_of_add_eq (h.self q)
  refine ⟨W, W', h1, h2, ?_, semiconj_sum fun p _ => (hout _ _ (i0 _) (i0 _)).add_right (hout _ _ (i0 _) (i0 _)), ?_,
    fun q => ?_⟩
  · rw [ringPairs, ← Finset.sum_sub_distrib]
    refine semiconj_sum fun i _ => ?_
    have := (hin _ _ (i1 i) (i1 i)).mul_right (hout _ _ (i0 i) (i0 i))
    simp only [zero_mul, zero_add, one_mul] at this
    rwa [hself, sub_mul, one_mul] at this
  · rw [ringHop, ← Finset.sum_neg_distrib]
    refine semiconj_sum fun p hp => ?_
    have := (hin _ _ (i1 p.1) (i1 p.2)).add_right (hin _ _ (i1 p.2) (i1 p.1))
    have hne : 1 * n + (p.1 : ℕ) ≠ 1 * n + p.2 := fun e => hE p hp (Fin.ext (by omega))
    rw [h.ac_neg hne, h.ac_neg hne.symm, ← neg_add] at this
    rwa [add_comm (c (1 * n + p.2) * a (1 * n + p.1))] at this
  · split
    · rename_i hq
      have := hin q q (Finset.mem_Ico.2 hq) (Finset.mem_Ico.2 hq)
      rwa [hself] at this
    · rename_i hq
      exact hout q q (fun h => hq (Finset.mem_Ico.1 h)) (fun h => hq (Finset.mem_Ico.1 h))

end modes

end Verif.LDB
