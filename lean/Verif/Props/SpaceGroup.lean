import Verif.Proofs.SpaceGroup
import Verif.Props.LatticeBand
import Verif.Props.LatticeSpin
/-!
# C122: the symmetries of the lattice are symmetries of the models
-/

namespace Verif.LDB

open Verif.Latt Demo

variable {prec : ℕ} {n0 n1 n2 : ℤ}

/-- **C122 (spins, generated lattices).**  Every size. -/
theorem C122_spins (hp : 1 ≤ prec) (h0 : 1 ≤ n0) (h1 : 1 ≤ n1) (h2 : 1 ≤ n2) :
    EverySpinRun prec n0.toNat (latticeGenerator prec "chain" n0 n1 n2) (SpinSymmetric chainSites) ∧
    EverySpinRun prec (n0.toNat * n1.toNat) (latticeGenerator prec "square" n0 n1 n2) (SpinSymmetric squareSites) ∧
    EverySpinRun prec (n0.toNat * n1.toNat) (latticeGenerator prec "triangle" n0 n1 n2) (SpinSymmetric triangleSites) ∧
    EverySpinRun prec (n0.toNat * n1.toNat * n2.toNat) (latticeGenerator prec "cubic" n0 n1 n2)
      (SpinSymmetric cubicSites) ∧
    EverySpinRun prec (n0.toNat * n1.toNat * 3) (latticeGenerator prec "kagome" n0 n1 n2) (SpinSymmetric kagomeSites) ∧
    (1 / Real.sqrt 3 ≤ roundTo prec (1 / Real.sqrt 3) →
      EverySpinRun prec (n0.toNat * n1.toNat * 2) (latticeGenerator prec "honeycomb" n0 n1 n2)
        (SpinSymmetric honeycombSites)) := by
  obtain ⟨a, b, c, d⟩ := C114_field hp h0 h1 h2
  obtain ⟨-, -, -, -, e, f⟩ := C114_generated hp h0 h1 h2
  exact ⟨spin_weaken (C53_chain hp h0 h1 h2) a fun _ _ _ ht h => symmetric_of_field ht h,
    spin_weaken (C53_square hp h0 h1 h2) b fun _ _ _ ht h => symmetric_of_field ht h,
    spin_weaken (C53_triangle hp h0 h1 h2) c fun _ _ _ ht h => symmetric_of_field ht h,
    spin_weaken (C53_cubic hp h0 h1 h2) d fun _ _ _ ht h => symmetric_of_field ht h,
    spin_weaken (C53_kagome hp h0 h1 h2) e fun _ _ _ ht h => symmetric_of_model ht h.1,
    fun hr => spin_weaken (C53_honeycomb hp h0 h1 h2) (f hr) fun _ _ _ ht h => symmetric_of_model ht h.1⟩

/-- The vectors of the special clusters. -/
theorem special_tilings (hp : 1 ≤ prec) (which : String) :
    (which ∈ ["square_cross", "square_12", "cross"] →
      ∃ v, ReturnsTiling (shifted ![1 / 2, 1 / 2] squareSites) 12 v (specialCluster prec which)) ∧
    (which ∈ ["square_z", "z", "square_s", "s"] →
      ∃ v, ReturnsTiling (shifted ![1 / 2, 0] squareSites) 10 v (specialCluster prec which)) ∧
    (which ∈ ["triangle_star", "triangle_13", "star", "SD"] →
      ∃ v, ReturnsTiling (shifted ![0, 0] triangleSites) 13 v (specialCluster prec which)) ∧
    (which ∈ ["honeycomb_benzene", "honeycomb_6", "benzene"] →
      ∃ v, ReturnsTiling (shifted ![1 / 2, 0] honeycombSites) 6 v (specialCluster prec which)) ∧
    (which ∈ ["honeycomb_diphenyl", "honeycomb_10", "diphenyl"] →
      ∃ v, ReturnsTiling (shifted ![0, 0] honeycombSites) 10 v (specialCluster prec which)) ∧
    (which ∈ ["honeycomb_gear", "honeycomb_24", "gear"] →
      ∃ v, ReturnsTiling (shifted ![1 / 2, 0] honeycombSites) 24 v (specialCluster prec which)) := by
  refine ⟨fun h => ⟨_, C54_cross hp which h⟩, fun h => ?_, fun h => ⟨_, C54_star hp which h⟩,
    fun h => ⟨_, C54_benzene hp which h⟩, fun h => ⟨_, C54_diphenyl hp which h⟩, fun h => ⟨_, C54_gear hp which h⟩⟩
  by_cases hz : which ∈ ["square_z", "z"]
  · exact ⟨_, C54_z hp which hz⟩
  · refine ⟨_, C54_s hp which ?_⟩
    simp only [List.mem_cons, List.not_mem_nil, or_false, not_or] at h hz ⊢
    tauto

/-- **C122 (spins, special clusters).** -/
theorem C122_spins_special (hp : 1 ≤ prec) (which : String) :
    (which ∈ ["square_cross", "square_12", "cross"] → EverySpinRun prec 12 (specialCluster prec which)
      (SpinSymmetric (shifted ![1 / 2, 1 / 2] squareSites))) ∧
    (which ∈ ["square_z", "z", "square_s", "s"] → EverySpinRun prec 10 (specialCluster prec which)
      (SpinSymmetric (shifted ![1 / 2, 0] squareSites))) ∧
    (which ∈ ["triangle_star", "triangle_13", "star", "SD"] → EverySpinRun prec 13 (specialCluster prec which)
      (SpinSymmetric (shifted ![0, 0] triangleSites))) ∧
    (1 / Real.sqrt 3 ≤ roundTo prec (1 / Real.sqrt 3) →
      (which ∈ ["honeycomb_benzene", "honeycomb_6", "benzene"] → EverySpinRun prec 6 (specialCluster prec which)
        (SpinSymmetric (shifted ![1 / 2, 0] honeycombSites))) ∧
      (which ∈ ["honeycomb_diphenyl", "honeycomb_10", "diphenyl"] → EverySpinRun prec 10 (specialCluster prec which)
        (SpinSymmetric (shifted ![0, 0] honeycombSites))) ∧
      (which ∈ ["honeycomb_gear", "honeycomb_24", "gear"] → EverySpinRun prec 24 (specialCluster prec which)
        (SpinSymmetric (shifted ![1 / 2, 0] honeycombSites)))) := by
  obtain ⟨t1, t2, t3, t4, t5, t6⟩ := special_tilings hp which
  obtain ⟨a, b, c, d⟩ := C114_special hp which
  exact ⟨fun h => spin_weaken (t1 h).choose_spec (a h) fun _ _ _ ht h => symmetric_of_model ht h.1,
    fun h => spin_weaken (t2 h).choose_spec (b h) fun _ _ _ ht h => symmetric_of_model ht h.1,
    fun h => spin_weaken (t3 h).choose_spec (c h) fun _ _ _ ht h => symmetric_of_model ht h.1,
    fun hr => ⟨fun h => spin_weaken (t4 h).choose_spec ((d hr).1 h) fun _ _ _ ht h => symmetric_of_model ht h.1,
      fun h => spin_weaken (t5 h).choose_spec ((d hr).2.1 h) fun _ _ _ ht h => symmetric_of_model ht h.1,
      fun h => spin_weaken (t6 h).choose_spec ((d hr).2.2 h) fun _ _ _ ht h => symmetric_of_model ht h.1⟩⟩

/-- **C122 (hopping, generated lattices).**  Every size. -/
theorem C122_hopping (hp : 1 ≤ prec) (h0 : 1 ≤ n0) (h1 : 1 ≤ n1) (h2 : 1 ≤ n2) :
    EveryRun prec n0.toNat (latticeGenerator prec "chain" n0 n1 n2) (HoppingSymmetric chainSites) ∧
    EveryRun prec (n0.toNat * n1.toNat) (latticeGenerator prec "square" n0 n1 n2) (HoppingSymmetric squareSites) ∧
    EveryRun prec (n0.toNat * n1.toNat) (latticeGenerator prec "triangle" n0 n1 n2) (HoppingSymmetric triangleSites) ∧
    EveryRun prec (n0.toNat * n1.toNat * 3) (latticeGenerator prec "kagome" n0 n1 n2) (HoppingSymmetric kagomeSites) ∧
    EveryRun prec (n0.toNat * n1.toNat * n2.toNat) (latticeGenerator prec "cubic" n0 n1 n2)
      (HoppingSymmetric cubicSites) ∧
    (1 / Real.sqrt 3 ≤ roundTo prec (1 / Real.sqrt 3) →
      EveryRun prec (n0.toNat * n1.toNat * 2) (latticeGenerator prec "honeycomb" n0 n1 n2)
        (HoppingSymmetric honeycombSites)) := by
  obtain ⟨a, b, c, d, e, f⟩ := C107_generated hp h0 h1 h2
  exact ⟨run_weaken (C53_chain hp h0 h1 h2) a fun _ _ _ _ ht h => hopping_of_one ht h,
    run_weaken (C53_square hp h0 h1 h2) b fun _ _ _ _ ht h => hopping_of_one ht h,
    run_weaken (C53_triangle hp h0 h1 h2) c fun _ _ _ _ ht h => hopping_of_one ht h,
    run_weaken (C53_kagome hp h0 h1 h2) d fun _ _ _ _ ht h => hopping_of_one ht h,
    run_weaken (C53_cubic hp h0 h1 h2) e fun _ _ _ _ ht h => hopping_of_one ht h,
    fun hr => run_weaken (C53_honeycomb hp h0 h1 h2) (f hr) fun _ _ _ _ ht h => hopping_of_one ht h⟩

/-- **C122 (hopping, special clusters).** -/
theorem C122_hopping_special (hp : 1 ≤ prec) (which : String) :
    (which ∈ ["square_cross", "square_12", "cross"] → EveryRun prec 12 (specialCluster prec which)
      (HoppingSymmetric (shifted ![1 / 2, 1 / 2] squareSites))) ∧
    (which ∈ ["square_z", "z", "square_s", "s"] → EveryRun prec 10 (specialCluster prec which)
      (HoppingSymmetric (shifted ![1 / 2, 0] squareSites))) ∧
    (which ∈ ["triangle_star", "triangle_13", "star", "SD"] → EveryRun prec 13 (specialCluster prec which)
      (HoppingSymmetric (shifted ![0, 0] triangleSites))) ∧
    (1 / Real.sqrt 3 ≤ roundTo prec (1 / Real.sqrt 3) →
      (which ∈ ["honeycomb_benzene", "honeycomb_6", "benzene"] → EveryRun prec 6 (specialCluster prec which)
        (HoppingSymmetric (shifted ![1 / 2, 0] honeycombSites))) ∧
      (which ∈ ["honeycomb_diphenyl", "honeycomb_10", "diphenyl"] → EveryRun prec 10 (specialCluster prec which)
        (HoppingSymmetric (shifted ![0, 0] honeycombSites))) ∧
      (which ∈ ["honeycomb_gear", "honeycomb_24", "gear"] → EveryRun prec 24 (specialCluster prec which)
        (HoppingSymmetric (shifted ![1 / 2, 0] honeycombSites)))) := by
  obtain ⟨t1, t2, t3, t4, t5, t6⟩ := special_tilings hp which
  obtain ⟨a, b, c, d⟩ := C107_special hp which
  exact ⟨fun h => run_weaken (t1 h).choose_spec (a h) fun _ _ _ _ ht h => hopping_of_one ht h,
    fun h => run_weaken (t2 h).choose_spec (b h) fun _ _ _ _ ht h => hopping_of_one ht h,
    fun h => run_weaken (t3 h).choose_spec (c h) fun _ _ _ _ ht h => hopping_of_one ht h,
    fun hr => ⟨fun h => run_weaken (t4 h).choose_spec ((d hr).1 h) fun _ _ _ _ ht h => hopping_of_one ht h,
      fun h => run_weaken (t5 h).choose_spec ((d hr).2.1 h) fun _ _ _ _ ht h => hopping_of_one ht h,
      fun h => run_weaken (t6 h).choose_spec ((d hr).2.2 h) fun _ _ _ _ ht h => hopping_of_one ht h⟩⟩

/-! ### Which maps are symmetries -/

theorem translation_symmetry {m k : ℕ} {S : Set (Pt m)} (v : Fin k → Pt m) {u : Pt m} (h1 : ∀ s ∈ S, s + u ∈ S)
    (h2 : ∀ s ∈ S, s - u ∈ S) : SymmetryOf S v (translation u) where
  maps := h1
  onto s hs := ⟨s - u, h2 s hs, sub_add_cancel s u⟩
  isometry s _ t _ := ndist_sub _ _ _ _ (by unfold translation; abel)
  periodic s _ c := ⟨c, by unfold translation; abel⟩

theorem inversion_symmetry {m k : ℕ} {S : Set (Pt m)} (v : Fin k → Pt m) {s t : Pt m} (h : ∀ p ∈ S, s + t - p ∈ S) :
    SymmetryOf S v (inversion s t) where
  maps := h
  onto p hp := ⟨s + t - p, h p hp, by unfold inversion; abel⟩
  isometry p _ q _ := by
    rw [ndist_comm p q]
    exact ndist_sub _ _ _ _ (by unfold inversion; abel)
  periodic p _ c := ⟨-c, by unfold inversion; rw [comb_neg]; abel⟩

/-- the moved lattice has the moved symmetries -/
theorem shifted_mem {m : ℕ} {S : Set (Pt m)} {t s : Pt m} : s ∈ shifted t S ↔ s - t ∈ S := Iff.rfl

/-- **C122 (translations and inversions).**  Whatever the periodic boundary conditions `v`: on a Bravais lattice every
translation and every inversion that maps one site to a site is a symmetry; the chain, the square, triangular and cubic
lattices are Bravais lattices, wherever they are placed; on the kagome and honeycomb lattices the translations by sites of
the triangular lattice and the inversion at the origin are symmetries. -/
theorem C122_translations {k : ℕ} :
    (∀ (m : ℕ) (S : Set (Pt m)) (v : Fin k → Pt m), Bravais S → ∀ s ∈ S, ∀ t ∈ S,
      SymmetryOf S v (translation (t - s)) ∧ SymmetryOf S v (inversion s t)) ∧
    (∀ t, Bravais (shifted t chainSites)) ∧ (∀ t, Bravais (shifted t squareSites)) ∧
    (∀ t, Bravais (shifted t triangleSites)) ∧ (∀ t, Bravais (shifted t cubicSites)) ∧
    (∀ v : Fin k → Pt 2, ∀ u ∈ triangleSites,
      SymmetryOf kagomeSites v (translation u) ∧ SymmetryOf honeycombSites v (translation u)) ∧
    ∀ v : Fin k → Pt 2, SymmetryOf kagomeSites v (inversion 0 0) ∧ SymmetryOf honeycombSites v (inversion 0 0) := by
  refine ⟨fun m S v hS s hs t ht => ⟨translation_symmetry v (fun p hp => ?_) fun p hp => ?_,
    inversion_symmetry v fun p hp => hS s hs t ht p hp⟩, bravais_shift bravais_chain, bravais_shift bravais_square,
    bravais_shift bravais_triangle, bravais_shift bravais_cubic, ?_, fun v => ⟨?_, ?_⟩⟩
  · rw [← add_sub_assoc]; exact hS p hp t ht s hs
  · rw [← sub_add, sub_add_eq_add_sub]; exact hS p hp s hs t ht
  · rintro v _ ⟨x, y, rfl⟩
    refine ⟨translation_symmetry v ?_ ?_, translation_symmetry v ?_ ?_⟩
    · rintro _ ⟨a, b, h, rfl⟩
      refine ⟨a + 2 * x, b + 2 * y, ?_, ?_⟩
      · rw [Int.odd_add, Int.odd_add]
        simpa using h
      · ext i; fin_cases i <;> simp <;> ring
    · rintro _ ⟨a, b, h, rfl⟩
      refine ⟨a - 2 * x, b - 2 * y, ?_, ?_⟩
      · rw [Int.odd_sub, Int.odd_sub]
        simpa using h
      · ext i; fin_cases i <;> simp <;> ring
    · rintro s ⟨_, ⟨a, b, rfl⟩, h⟩
      refine ⟨_, ⟨a + x, b + y, rfl⟩, ?_⟩
      rcases h with rfl | rfl
      · left; ext i; fin_cases i <;> simp <;> ring
      · right; ext i; fin_cases i <;> simp <;> ring
    · rintro s ⟨_, ⟨a, b, rfl⟩, h⟩
      refine ⟨_, ⟨a - x, b - y, rfl⟩, ?_⟩
      rcases h with rfl | rfl
      · left; ext i; fin_cases i <;> simp <;> ring
      · right; ext i; fin_cases i <;> simp <;> ring
  · refine inversion_symmetry v ?_
    rintro _ ⟨a, b, h, rfl⟩
    refine ⟨-a, -b, by simpa using h, ?_⟩
    ext i; fin_cases i <;> simp <;> ring
  · refine inversion_symmetry v ?_
    rintro s ⟨_, ⟨a, b, rfl⟩, h⟩
    refine ⟨_, ⟨-a, -b, rfl⟩, ?_⟩
    rcases h with rfl | rfl
    · right; ext i; fin_cases i <;> simp <;> ring
    · left; ext i; fin_cases i <;> simp <;> ring

/-- **C122 (quarter turns).**  Quarter turns about a site are symmetries of square clusters with as many cells in both
directions, and of the clusters `z` and `s`. -/
theorem C122_quarter_turns (n : ℤ) (p0 : Pt 2) :
    (p0 ∈ squareSites → SymmetryOf squareSites ![![(n : ℝ), 0], ![0, (n : ℝ)]] (quarterTurn p0)) ∧
    (p0 ∈ shifted ![1 / 2, 0] squareSites →
      SymmetryOf (shifted ![1 / 2, 0] squareSites) ![![1, -3], ![3, 1]] (quarterTurn p0) ∧
      SymmetryOf (shifted ![1 / 2, 0] squareSites) ![![3, -1], ![1, 3]] (quarterTurn p0)) := by
  have iso : ∀ s t : Pt 2, ndist (quarterTurn p0 s) (quarterTurn p0 t) = ndist s t := by
    intro s t
    unfold ndist quarterTurn
    congr 1
    simp only [Fin.sum_univ_two, Matrix.cons_val_zero, Matrix.cons_val_one]
    ring
  have per : ∀ (v : Fin 2 → Pt 2) (a b c d : ℤ), quarterTurn 0 (v 0) = comb v ![a, b] →
      quarterTurn 0 (v 1) = comb v ![c, d] → ∀ s e, ∃ e', quarterTurn p0 (s + comb v e) = quarterTurn p0 s + comb v e' := by
    intro v a b c d h0 h1 s e
    refine ⟨![e 0 * a + e 1 * c, e 0 * b + e 1 * d], ?_⟩
    have x0 := congrFun h0 0
    have x1 := congrFun h0 1
    have y0 := congrFun h1 0
    have y1 := congrFun h1 1
    simp only [quarterTurn, comb, Fin.sum_univ_two, Matrix.cons_val_zero, Matrix.cons_val_one, Pi.zero_apply, sub_zero,
      zero_sub, zero_add] at x0 x1 y0 y1
    funext i
    fin_cases i
    · simp only [quarterTurn, comb, Fin.sum_univ_two, Pi.add_apply, Fin.zero_eta, Matrix.cons_val_zero,
        Matrix.cons_val_one]
      push_cast
      linear_combination (e 0 : ℝ) * x0 + (e 1 : ℝ) * y0
    · simp only [quarterTurn, comb, Fin.sum_univ_two, Pi.add_apply, Fin.mk_one, Matrix.cons_val_zero,
        Matrix.cons_val_one]
      push_cast
      linear_combination (e 0 : ℝ) * x1 + (e 1 : ℝ) * y1
  have sq : ∀ t : Pt 2, p0 ∈ shifted t squareSites → (∀ s ∈ shifted t squareSites, quarterTurn p0 s ∈ shifted t squareSites) ∧
      ∀ s ∈ shifted t squareSites, ∃ u ∈ shifted t squareSites, quarterTurn p0 u = s := by
    rintro t ⟨x, y, h⟩
    have hx : p0 0 = t 0 + x := by have := congrFun h 0; simp at this; linarith
    have hy : p0 1 = t 1 + y := by have := congrFun h 1; simp at this; linarith
    refine ⟨?_, ?_⟩
    · rintro s ⟨a, b, h⟩
      have hs0 : s 0 = t 0 + a := by have := congrFun h 0; simp at this; linarith
      have hs1 : s 1 = t 1 + b := by have := congrFun h 1; simp at this; linarith
      refine ⟨x - (b - y), y + (a - x), ?_⟩
      ext i; fin_cases i <;> simp [quarterTurn, hx, hy, hs0, hs1] <;> ring
    · rintro s ⟨a, b, h⟩
      have hs0 : s 0 = t 0 + a := by have := congrFun h 0; simp at this; linarith
      have hs1 : s 1 = t 1 + b := by have := congrFun h 1; simp at this; linarith
      refine ⟨![t 0 + ((x + (b - y) : ℤ) : ℝ), t 1 + ((y - (a - x) : ℤ) : ℝ)], ⟨x + (b - y), y - (a - x), ?_⟩, ?_⟩
      · ext i; fin_cases i <;> simp
      · ext i; fin_cases i <;> simp [quarterTurn, hx, hy, hs0, hs1] <;> ring
  have e0 : shifted 0 squareSites = squareSites := by
    ext s; rw [shifted_mem, sub_zero]
  refine ⟨fun h => ?_, fun h => ⟨?_, ?_⟩⟩
  · rw [← e0] at h ⊢
    refine ⟨(sq 0 h).1, (sq 0 h).2, fun s _ t _ => iso s t, fun s _ c => per _ 0 1 (-1) 0 ?_ ?_ s c⟩ <;>
      (ext i; fin_cases i <;> simp [quarterTurn, comb, Fin.sum_univ_two])
  · refine ⟨(sq _ h).1, (sq _ h).2, fun s _ t _ => iso s t, fun s _ c => per _ 0 1 (-1) 0 ?_ ?_ s c⟩ <;>
      (ext i; fin_cases i <;> simp [quarterTurn, comb, Fin.sum_univ_two])
  · refine ⟨(sq _ h).1, (sq _ h).2, fun s _ t _ => iso s t, fun s _ c => per _ 0 1 (-1) 0 ?_ ?_ s c⟩ <;>
      (ext i; fin_cases i <;> simp [quarterTurn, comb, Fin.sum_univ_two])

/-- A translation by one cell of the ring of five sites is a symmetry, and not the identity. -/
example : SymmetryOf chainSites ![![((5 : ℤ) : ℝ)]] (translation ![1]) ∧ translation ![1] (![0] : Pt 1) ≠ ![0] := by
  constructor
  · have := ((C122_translations (k := 1)).1 1 chainSites ![![((5 : ℤ) : ℝ)]] bravais_chain ![0] ⟨0, by simp⟩ ![1]
      ⟨1, by simp⟩).1
    simpa using this
  · intro h
    have := congrFun h 0
    simp [translation] at this

end Verif.LDB
