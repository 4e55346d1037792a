import Verif.Proofs.LatticeBandRun
import Verif.Props.Coordination
/-!
# Steps and wave vectors of the Bravais lattices
-/

namespace Verif.LDB

open Verif.Latt Demo

theorem bravais_shift {m : ℕ} {S : Set (Pt m)} (h : Bravais S) (t : Pt m) : Bravais (shifted t S) := by
  intro a ha b hb c hc
  have := h _ ha _ hb _ hc
  change a + b - c - t ∈ S
  convert this using 1
  abel

theorem steps_shift {m : ℕ} {S : Set (Pt m)} {d : ℝ} {D : Finset (Pt m)} (h : NeighbourVectors S d D) (t : Pt m) :
    NeighbourVectors (shifted t S) d D := by
  intro s hs x
  have := h (s - t) hs (x - t)
  have hn : ndist (s - t) (x - t) = ndist s x := ndist_sub _ _ _ _ (by abel)
  rw [hn] at this
  refine this.trans ⟨fun ⟨y, hy, e⟩ => ⟨y, hy, ?_⟩, fun ⟨y, hy, e⟩ => ⟨y, hy, ?_⟩⟩
  · rw [sub_eq_iff_eq_add] at e
    rw [e]; abel
  · rw [e]; abel

theorem bravais_chain : Bravais chainSites := by
  rintro _ ⟨a, rfl⟩ _ ⟨b, rfl⟩ _ ⟨c, rfl⟩
  exact ⟨a + b - c, by ext i; fin_cases i; simp⟩

theorem bravais_square : Bravais squareSites := by
  rintro _ ⟨a, a', rfl⟩ _ ⟨b, b', rfl⟩ _ ⟨c, c', rfl⟩
  exact ⟨a + b - c, a' + b' - c', by ext i; fin_cases i <;> simp⟩

theorem bravais_cubic : Bravais cubicSites := by
  rintro _ ⟨a, a', a'', rfl⟩ _ ⟨b, b', b'', rfl⟩ _ ⟨c, c', c'', rfl⟩
  exact ⟨a + b - c, a' + b' - c', a'' + b'' - c'', by ext i; fin_cases i <;> simp⟩

theorem bravais_triangle : Bravais triangleSites := by
  rintro _ ⟨a, a', rfl⟩ _ ⟨b, b', rfl⟩ _ ⟨c, c', rfl⟩
  refine ⟨a + b - c, a' + b' - c', ?_⟩
  ext i
  fin_cases i <;> simp <;> ring

theorem sum_chainSteps {M : Type*} [AddCommMonoid M] (f : Pt 1 → M) :
    ∑ y ∈ chainSteps, f y = f ![1] + f ![-1] := by
  unfold chainSteps
  rw [Finset.sum_insert, Finset.sum_singleton]
  simp only [Finset.mem_singleton, Matrix.vecCons_inj]; norm_num

theorem sum_squareSteps {M : Type*} [AddCommMonoid M] (f : Pt 2 → M) :
    ∑ y ∈ squareSteps, f y = f ![1, 0] + (f ![-1, 0] + (f ![0, 1] + f ![0, -1])) := by
  unfold squareSteps
  rw [Finset.sum_insert, Finset.sum_insert, Finset.sum_insert, Finset.sum_singleton] <;>
  simp only [Finset.mem_insert, Finset.mem_singleton, Matrix.vecCons_inj] <;> norm_num

theorem sum_cubicSteps {M : Type*} [AddCommMonoid M] (f : Pt 3 → M) :
    ∑ y ∈ cubicSteps, f y = f ![1, 0, 0] + (f ![-1, 0, 0] + (f ![0, 1, 0] + (f ![0, -1, 0] +
      (f ![0, 0, 1] + f ![0, 0, -1])))) := by
  unfold cubicSteps
  rw [Finset.sum_insert, Finset.sum_insert, Finset.sum_insert, Finset.sum_insert, Finset.sum_insert,
    Finset.sum_singleton] <;>
  simp only [Finset.mem_insert, Finset.mem_singleton, Matrix.vecCons_inj] <;> norm_num

theorem sum_triangleSteps {M : Type*} [AddCommMonoid M] (f : Pt 2 → M) :
    ∑ y ∈ triangleSteps, f y = f ![1, 0] + (f ![-1, 0] + (f ![1 / 2, Real.sqrt 3 / 2] +
      (f ![-1 / 2, -Real.sqrt 3 / 2] + (f ![1 / 2, -Real.sqrt 3 / 2] + f ![-1 / 2, Real.sqrt 3 / 2])))) := by
  have h : Real.sqrt 3 ≠ -Real.sqrt 3 := by have := Real.sqrt_pos.2 (show (0:ℝ) < 3 by norm_num); linarith
  unfold triangleSteps
  rw [Finset.sum_insert, Finset.sum_insert, Finset.sum_insert, Finset.sum_insert, Finset.sum_insert,
    Finset.sum_singleton] <;>
  simp only [Finset.mem_insert, Finset.mem_singleton, Matrix.vecCons_inj] <;> norm_num
  all_goals first | exact h | (intro e; exact h (by linarith))

theorem steps_chain : NeighbourVectors chainSites 1 chainSteps := by
  refine neighbours_of_coord coord_chain (by norm_num) ?_ ?_ ?_
  · rw [Finset.card_eq_sum_ones, sum_chainSteps]
  · rintro _ ⟨a, rfl⟩ y hy
    simp only [chainSteps, Finset.mem_insert, Finset.mem_singleton] at hy
    rcases hy with rfl | rfl
    · exact ⟨a + 1, by ext i; fin_cases i; simp⟩
    · exact ⟨a - 1, by ext i; fin_cases i; simp; ring⟩
  · intro y hy
    simp only [chainSteps, Finset.mem_insert, Finset.mem_singleton] at hy
    rcases hy with rfl | rfl <;> simp [ndist]

theorem steps_square : NeighbourVectors squareSites 1 squareSteps := by
  refine neighbours_of_coord coord_square (by norm_num) ?_ ?_ ?_
  · rw [Finset.card_eq_sum_ones, sum_squareSteps]; norm_num
  · rintro _ ⟨a, b, rfl⟩ y hy
    simp only [squareSteps, Finset.mem_insert, Finset.mem_singleton] at hy
    rcases hy with rfl | rfl | rfl | rfl
    · exact ⟨a + 1, b, by ext i; fin_cases i <;> simp⟩
    · exact ⟨a - 1, b, by ext i; fin_cases i <;> simp; ring⟩
    · exact ⟨a, b + 1, by ext i; fin_cases i <;> simp⟩
    · exact ⟨a, b - 1, by ext i; fin_cases i <;> simp; ring⟩
  · intro y hy
    simp only [squareSteps, Finset.mem_insert, Finset.mem_singleton] at hy
    rcases hy with rfl | rfl | rfl | rfl <;> simp [ndist]

theorem steps_cubic : NeighbourVectors cubicSites 1 cubicSteps := by
  refine neighbours_of_coord coord_cubic (by norm_num) ?_ ?_ ?_
  · rw [Finset.card_eq_sum_ones, sum_cubicSteps]; norm_num
  · rintro _ ⟨a, b, c, rfl⟩ y hy
    simp only [cubicSteps, Finset.mem_insert, Finset.mem_singleton] at hy
    rcases hy with rfl | rfl | rfl | rfl | rfl | rfl
    · exact ⟨a + 1, b, c, by ext i; fin_cases i <;> simp⟩
    · exact ⟨a - 1, b, c, by ext i; fin_cases i <;> simp; ring⟩
    · exact ⟨a, b + 1, c, by ext i; fin_cases i <;> simp⟩
    · exact ⟨a, b - 1, c, by ext i; fin_cases i <;> simp; ring⟩
    · exact ⟨a, b, c + 1, by ext i; fin_cases i <;> simp⟩
    · exact ⟨a, b, c - 1, by ext i; fin_cases i <;> simp; ring⟩
  · intro y hy
    simp only [cubicSteps, Finset.mem_insert, Finset.mem_singleton] at hy
    rcases hy with rfl | rfl | rfl | rfl | rfl | rfl <;> simp [ndist, Fin.sum_univ_three]

theorem steps_triangle : NeighbourVectors triangleSites 1 triangleSteps := by
  refine neighbours_of_coord coord_triangle (by norm_num) ?_ ?_ ?_
  · rw [Finset.card_eq_sum_ones, sum_triangleSteps]; norm_num
  · rintro _ ⟨a, b, rfl⟩ y hy
    simp only [triangleSteps, Finset.mem_insert, Finset.mem_singleton] at hy
    rcases hy with rfl | rfl | rfl | rfl | rfl | rfl
    · exact ⟨a + 1, b, by ext i; fin_cases i <;> simp; ring1⟩
    · exact ⟨a - 1, b, by ext i; fin_cases i <;> simp; ring1⟩
    · exact ⟨a, b + 1, by ext i; fin_cases i <;> simp <;> ring1⟩
    · exact ⟨a, b - 1, by ext i; fin_cases i <;> simp <;> ring1⟩
    · exact ⟨a + 1, b - 1, by ext i; fin_cases i <;> simp <;> ring1⟩
    · exact ⟨a - 1, b + 1, by ext i; fin_cases i <;> simp <;> ring1⟩
  · intro y hy
    have h3 : Real.sqrt 3 ^ 2 = 3 := Real.sq_sqrt (by norm_num)
    simp only [triangleSteps, Finset.mem_insert, Finset.mem_singleton] at hy
    rcases hy with rfl | rfl | rfl | rfl | rfl | rfl <;>
    simp only [ndist, Fin.sum_univ_two, Pi.zero_apply, Matrix.cons_val_zero, Matrix.cons_val_one,
      Matrix.cons_val_fin_one] <;> rw [Real.sqrt_eq_one] <;> ring_nf <;> (try rw [h3]) <;> norm_num

variable {m prec : ℕ}

theorem energies_run {S : Set (Pt m)} {d : ℝ} (hd0 : d ≠ 0) {z count : ℕ} (hz : 0 < z) (hc0 : 1 ≤ count)
    (hc : Coordination S d z) {v : Fin m → Pt m} {r : Py Built} (ht : ReturnsTiling S count v r)
    (hf : FindsNearest prec S d r) (hfold : FoldsEverySite prec S r) (hB : Bravais S) {D : Finset (Pt m)}
    (hD : NeighbourVectors S d D) {ι : Type} [Fintype ι] (hcard : Fintype.card ι = count) (q : ι → Pt m)
    (hq : ∀ x, Allowed v (q x)) (hne : ∀ x y, (∀ a ∈ S, ∀ b ∈ S, planeWave (q x) (b - a) = planeWave (q y) (b - a)) → x = y)
    (eps : ℝ → ι → ℝ) (he : ∀ t x, bandEnergy t D (q x) = eps t x) :
    EveryRun prec count r (Energies m eps) := by
  obtain ⟨L0, h1, h3⟩ := bandSpectrum_run hd0 hz hc0 hc ht hf hfold hB hD
  obtain ⟨L1, e1, e2, -⟩ := ht
  have : L1 = L0 := by
    rw [h1] at e1
    cases e1; rfl
  subst this
  refine ⟨L1, h1, fun order horder porder hporder calls zoom coordOf hst species hs h64 t N hN => ?_⟩
  obtain ⟨U, hU, hch⟩ := h3 order horder porder hporder calls zoom coordOf hst species hs h64 t ι q hcard
    (by rw [e2]; exact hq) (fun x y hxy h => hxy (hne x y h)) N hN
  refine ⟨U, hU, ?_⟩
  rw [hch]
  simp only [he]

theorem dot1 (q p : Pt 1) : ∑ a, q a * p a = q 0 * p 0 := by simp

theorem dot2 (q p : Pt 2) : ∑ a, q a * p a = q 0 * p 0 + q 1 * p 1 := Fin.sum_univ_two _

theorem dot3 (q p : Pt 3) : ∑ a, q a * p a = q 0 * p 0 + q 1 * p 1 + q 2 * p 2 := Fin.sum_univ_three _

theorem cast_toNat {k : ℤ} (h : 1 ≤ k) : ((k.toNat : ℕ) : ℝ) = (k : ℝ) := by
  have : ((k.toNat : ℕ) : ℤ) = k := Int.toNat_of_nonneg (by omega)
  exact_mod_cast congrArg (fun z : ℤ => (z : ℝ)) this

theorem phase_eq {N : ℕ} {x y : Fin N} {q q' p : Pt m} (h : planeWave q p = planeWave q' p)
    (hx : ∑ a, q a * p a = 2 * Real.pi * (x : ℕ) / N) (hy : ∑ a, q' a * p a = 2 * Real.pi * (y : ℕ) / N) : x = y := by
  unfold planeWave at h
  rw [hx, hy] at h
  exact phase_inj x y h

variable {n0 n1 n2 : ℤ}

theorem energies_chain (hp : 1 ≤ prec) (h0 : 1 ≤ n0) (h1 : 1 ≤ n1) (h2 : 1 ≤ n2) :
    EveryRun prec n0.toNat (latticeGenerator prec "chain" n0 n1 n2)
      (Energies 1 fun t (x : Fin n0.toNat) => 2 * t * Real.cos (2 * Real.pi * (x : ℕ) / n0)) := by
  obtain ⟨a, -, -, -, -, -⟩ := C94_generated hp h0 h1 h2
  obtain ⟨a', -, -, -, -, -⟩ := C66_generated hp h0 h1 h2
  have e0 := cast_toNat h0
  have n0' : (n0 : ℝ) ≠ 0 := by positivity
  refine energies_run one_ne_zero (by norm_num) (by omega) coord_chain (C53_chain hp h0 h1 h2) a a' bravais_chain
    steps_chain (by simp) (fun x : Fin n0.toNat => ![2 * Real.pi * (x : ℕ) / n0]) ?_ ?_ _ ?_
  · intro x i
    fin_cases i
    exact ⟨x, by rw [dot1]; simp; field_simp⟩
  · intro x y h
    have := h ![0] ⟨0, by simp⟩ ![1] ⟨1, by simp⟩
    exact phase_eq this (by rw [dot1, e0]; simp) (by rw [dot1, e0]; simp)
  · intro t x
    unfold bandEnergy
    rw [sum_chainSteps, dot1, dot1]
    simp only [Matrix.cons_val_zero, Matrix.cons_val_fin_one, mul_one, mul_neg, Real.cos_neg]
    ring

theorem energies_square (hp : 1 ≤ prec) (h0 : 1 ≤ n0) (h1 : 1 ≤ n1) (h2 : 1 ≤ n2) :
    EveryRun prec (n0.toNat * n1.toNat) (latticeGenerator prec "square" n0 n1 n2)
      (Energies 2 fun t (x : Fin n0.toNat × Fin n1.toNat) =>
        2 * t * (Real.cos (2 * Real.pi * (x.1 : ℕ) / n0) + Real.cos (2 * Real.pi * (x.2 : ℕ) / n1))) := by
  obtain ⟨-, a, -, -, -, -⟩ := C94_generated hp h0 h1 h2
  obtain ⟨-, a', -, -, -, -⟩ := C66_generated hp h0 h1 h2
  have e0 := cast_toNat h0
  have e1 := cast_toNat h1
  have n0' : (n0 : ℝ) ≠ 0 := by positivity
  have n1' : (n1 : ℝ) ≠ 0 := by positivity
  refine energies_run one_ne_zero (by norm_num) (Nat.mul_pos (by omega) (by omega)) coord_square (C53_square hp h0 h1 h2) a a'
    bravais_square steps_square (by simp)
    (fun x => ![2 * Real.pi * (x.1 : ℕ) / n0, 2 * Real.pi * (x.2 : ℕ) / n1]) ?_ ?_ _ ?_
  · intro x i
    fin_cases i
    · exact ⟨x.1, by rw [dot2]; simp; field_simp⟩
    · exact ⟨x.2, by rw [dot2]; simp; field_simp⟩
  · intro x y h
    have hx := h ![0, 0] ⟨0, 0, by simp⟩ ![1, 0] ⟨1, 0, by simp⟩
    have hy := h ![0, 0] ⟨0, 0, by simp⟩ ![0, 1] ⟨0, 1, by simp⟩
    exact Prod.ext (phase_eq hx (by rw [dot2, e0]; simp) (by rw [dot2, e0]; simp))
      (phase_eq hy (by rw [dot2, e1]; simp) (by rw [dot2, e1]; simp))
  · intro t x
    unfold bandEnergy
    rw [sum_squareSteps]
    simp only [dot2, Matrix.cons_val_zero, Matrix.cons_val_one, Matrix.cons_val_fin_one, mul_one, mul_neg, mul_zero,
      add_zero, zero_add, Real.cos_neg]
    ring

theorem energies_cubic (hp : 1 ≤ prec) (h0 : 1 ≤ n0) (h1 : 1 ≤ n1) (h2 : 1 ≤ n2) :
    EveryRun prec (n0.toNat * n1.toNat * n2.toNat) (latticeGenerator prec "cubic" n0 n1 n2)
      (Energies 3 fun t (x : (Fin n0.toNat × Fin n1.toNat) × Fin n2.toNat) =>
        2 * t * (Real.cos (2 * Real.pi * (x.1.1 : ℕ) / n0) + Real.cos (2 * Real.pi * (x.1.2 : ℕ) / n1) +
          Real.cos (2 * Real.pi * (x.2 : ℕ) / n2))) := by
  obtain ⟨-, -, -, -, a, -⟩ := C94_generated hp h0 h1 h2
  obtain ⟨-, -, -, -, -, a'⟩ := C66_generated hp h0 h1 h2
  have e0 := cast_toNat h0
  have e1 := cast_toNat h1
  have e2 := cast_toNat h2
  have n0' : (n0 : ℝ) ≠ 0 := by positivity
  have n1' : (n1 : ℝ) ≠ 0 := by positivity
  have n2' : (n2 : ℝ) ≠ 0 := by positivity
  refine energies_run one_ne_zero (by norm_num) (Nat.mul_pos (Nat.mul_pos (by omega) (by omega)) (by omega)) coord_cubic
    (C53_cubic hp h0 h1 h2) a a'
    bravais_cubic steps_cubic (by simp)
    (fun x => ![2 * Real.pi * (x.1.1 : ℕ) / n0, 2 * Real.pi * (x.1.2 : ℕ) / n1, 2 * Real.pi * (x.2 : ℕ) / n2]) ?_ ?_ _ ?_
  · intro x i
    fin_cases i
    · exact ⟨x.1.1, by rw [dot3]; simp; field_simp⟩
    · exact ⟨x.1.2, by rw [dot3]; simp; field_simp⟩
    · exact ⟨x.2, by rw [dot3]; simp; field_simp⟩
  · intro x y h
    have hx := h ![0, 0, 0] ⟨0, 0, 0, by simp⟩ ![1, 0, 0] ⟨1, 0, 0, by simp⟩
    have hy := h ![0, 0, 0] ⟨0, 0, 0, by simp⟩ ![0, 1, 0] ⟨0, 1, 0, by simp⟩
    have hz := h ![0, 0, 0] ⟨0, 0, 0, by simp⟩ ![0, 0, 1] ⟨0, 0, 1, by simp⟩
    exact Prod.ext (Prod.ext (phase_eq hx (by rw [dot3, e0]; simp) (by rw [dot3, e0]; simp))
      (phase_eq hy (by rw [dot3, e1]; simp) (by rw [dot3, e1]; simp)))
      (phase_eq hz (by rw [dot3, e2]; simp) (by rw [dot3, e2]; simp))
  · intro t x
    unfold bandEnergy
    rw [sum_cubicSteps]
    simp only [dot3, Matrix.cons_val_zero, Matrix.cons_val_one, Matrix.cons_val, Matrix.cons_val_fin_one, mul_one, mul_neg, mul_zero,
      add_zero, zero_add, Real.cos_neg]
    ring

theorem energies_triangle (hp : 1 ≤ prec) (h0 : 1 ≤ n0) (h1 : 1 ≤ n1) (h2 : 1 ≤ n2) :
    EveryRun prec (n0.toNat * n1.toNat) (latticeGenerator prec "triangle" n0 n1 n2)
      (Energies 2 fun t (x : Fin n0.toNat × Fin n1.toNat) =>
        2 * t * (Real.cos (2 * Real.pi * (x.1 : ℕ) / n0) + Real.cos (2 * Real.pi * (x.2 : ℕ) / n1) +
          Real.cos (2 * Real.pi * (x.1 : ℕ) / n0 - 2 * Real.pi * (x.2 : ℕ) / n1))) := by
  obtain ⟨-, -, a, -, -, -⟩ := C94_generated hp h0 h1 h2
  obtain ⟨-, -, a', -, -, -⟩ := C66_generated hp h0 h1 h2
  have e0 := cast_toNat h0
  have e1 := cast_toNat h1
  have n0' : (n0 : ℝ) ≠ 0 := by positivity
  have n1' : (n1 : ℝ) ≠ 0 := by positivity
  have h3 : Real.sqrt 3 ≠ 0 := by positivity
  refine energies_run one_ne_zero (by norm_num) (Nat.mul_pos (by omega) (by omega)) coord_triangle (C53_triangle hp h0 h1 h2) a a'
    bravais_triangle steps_triangle (by simp)
    (fun x => ![2 * Real.pi * (x.1 : ℕ) / n0,
      (2 * (2 * Real.pi * (x.2 : ℕ) / n1) - 2 * Real.pi * (x.1 : ℕ) / n0) / Real.sqrt 3]) ?_ ?_ _ ?_
  · intro x i
    fin_cases i
    · exact ⟨x.1, by rw [dot2]; simp; field_simp⟩
    · exact ⟨x.2, by rw [dot2]; simp; field_simp; ring⟩
  · intro x y h
    have hx := h ![0, 0] ⟨0, 0, by simp⟩ ![1, 0] ⟨1, 0, by simp⟩
    have hy := h ![0, 0] ⟨0, 0, by simp⟩ ![1 / 2, Real.sqrt 3 / 2] ⟨0, 1, by simp⟩
    refine Prod.ext (phase_eq hx (by rw [dot2, e0]; simp) (by rw [dot2, e0]; simp))
      (phase_eq hy ?_ ?_) <;>
    · rw [dot2, e1]; simp; field_simp; ring
  · intro t x
    unfold bandEnergy
    rw [sum_triangleSteps]
    have e : ∀ a b : ℝ, a * (1 / 2) + (2 * b - a) / Real.sqrt 3 * (Real.sqrt 3 / 2) = b := by
      intro a b; field_simp; ring
    have e' : ∀ a b : ℝ, a * (-1 / 2) + (2 * b - a) / Real.sqrt 3 * (-Real.sqrt 3 / 2) = -b := by
      intro a b; field_simp; ring
    have f : ∀ a b : ℝ, a * (1 / 2) + (2 * b - a) / Real.sqrt 3 * (-Real.sqrt 3 / 2) = a - b := by
      intro a b; field_simp; ring
    have f' : ∀ a b : ℝ, a * (-1 / 2) + (2 * b - a) / Real.sqrt 3 * (Real.sqrt 3 / 2) = -(a - b) := by
      intro a b; field_simp; ring
    simp only [dot2, Matrix.cons_val_zero, Matrix.cons_val_one, Matrix.cons_val_fin_one, e, e', f, f', mul_one, mul_neg, mul_zero,
      add_zero, zero_add, Real.cos_neg]
    ring

end Verif.LDB
