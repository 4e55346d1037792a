import Verif.Proofs.OpenBox
import Verif.Props.HubbardLimits
import Verif.Props.Numbering
/-!
# C124: the Hubbard script without interaction on open chains, rectangles and blocks: all energies in closed form
-/

namespace Verif.LDB

open Verif.Latt Verif.Spec Demo

variable {prec : ℕ} {n0 n1 n2 : ℤ}

/-- **C124 (chain).** -/
theorem C124_chain (hp : 1 ≤ prec) (h0 : 1 ≤ n0) (h1 : 1 ≤ n1) (h2 : 1 ≤ n2) (hn : 2 * n0.toNat ≤ 64) :
    EveryHubbardRun (m := 1) prec n0.toNat (latticeGenerator prec "chain" n0 n1 n2) fun _ _ _ run =>
      FreeLevels n0.toNat (fun t k => chainLevel n0.toNat t k) run := by
  obtain ⟨L', hL', hpt⟩ := C123_chain hp h0 h1 h2
  refine ((C118_generated hp h0 h1 h2).1 hn).mono fun L hL _ _ run hr => ?_
  obtain rfl : L = L' := by rw [hL] at hL'; cases hL'; rfl
  refine freeLevels_of hr.1 (Equiv.refl _) (fun t => unitHop (lineSq n0.toNat) t)
    (hopping_eq _ (sqDist_line _) fun i j => ?_) _ fun t => by rw [unitHop_line]; exact solved_path _ t
  rw [Equiv.refl_apply, Equiv.refl_apply, hpt, hpt]
  simp [lineSq]

/-- **C124 (rectangle).** -/
theorem C124_square (hp : 1 ≤ prec) (h0 : 1 ≤ n0) (h1 : 1 ≤ n1) (h2 : 1 ≤ n2) (hn : 2 * (n0.toNat * n1.toNat) ≤ 64) :
    EveryHubbardRun (m := 2) prec (n0.toNat * n1.toNat) (latticeGenerator prec "square" n0 n1 n2) fun _ _ _ run =>
      FreeLevels (n0.toNat * n1.toNat)
        (fun t (k : Fin n0.toNat × Fin n1.toNat) => chainLevel n0.toNat t k.1 + chainLevel n1.toNat t k.2) run := by
  obtain ⟨L', hL', hpt⟩ := C123_square hp h0 h1 h2
  refine ((C118_generated hp h0 h1 h2).2.1 hn).mono fun L hL _ _ run hr => ?_
  obtain rfl : L = L' := by rw [hL] at hL'; cases hL'; rfl
  refine freeLevels_of hr.1 finProdFinEquiv (fun t => unitHop (sumSq (lineSq n0.toNat) (lineSq n1.toNat)) t)
    (hopping_eq _ ((sqDist_line _).sum (sqDist_line _)) ?_) _ fun t => by
      rw [unitHop_sum (sqDist_line _) (sqDist_line _), unitHop_line, unitHop_line]
      exact (solved_path _ t).prod (solved_path _ t)
  rintro ⟨i, i'⟩ ⟨j, j'⟩
  rw [hpt, hpt, Fin.sum_univ_two]
  have a : ∀ (x : Fin n0.toNat) (y : Fin n1.toNat), ((finProdFinEquiv (x, y) : Fin (n0.toNat * n1.toNat)) : ℕ) / n1.toNat = x :=
    fun x y => by
      rw [finProdFinEquiv_apply_val, Nat.add_mul_div_left _ _ (lt_of_le_of_lt (Nat.zero_le _) y.2), Nat.div_eq_of_lt y.2,
        zero_add]
  have b : ∀ (x : Fin n0.toNat) (y : Fin n1.toNat), ((finProdFinEquiv (x, y) : Fin (n0.toNat * n1.toNat)) : ℕ) % n1.toNat = y :=
    fun x y => by rw [finProdFinEquiv_apply_val, Nat.add_mul_mod_self_left, Nat.mod_eq_of_lt y.2]
  simp only [a, b]
  simp [lineSq, sumSq]

/-- **C124 (block).** -/
theorem C124_cubic (hp : 1 ≤ prec) (h0 : 1 ≤ n0) (h1 : 1 ≤ n1) (h2 : 1 ≤ n2)
    (hn : 2 * (n0.toNat * n1.toNat * n2.toNat) ≤ 64) :
    EveryHubbardRun (m := 3) prec (n0.toNat * n1.toNat * n2.toNat) (latticeGenerator prec "cubic" n0 n1 n2)
      fun _ _ _ run => FreeLevels (n0.toNat * n1.toNat * n2.toNat)
        (fun t (k : (Fin n0.toNat × Fin n1.toNat) × Fin n2.toNat) =>
          chainLevel n0.toNat t k.1.1 + chainLevel n1.toNat t k.1.2 + chainLevel n2.toNat t k.2) run := by
  obtain ⟨L', hL', hpt⟩ := C123_cubic hp h0 h1 h2
  refine ((C118_generated hp h0 h1 h2).2.2.2.2.1 hn).mono fun L hL _ _ run hr => ?_
  obtain rfl : L = L' := by rw [hL] at hL'; cases hL'; rfl
  refine freeLevels_of hr.1 ((finProdFinEquiv.prodCongr (Equiv.refl _)).trans finProdFinEquiv)
    (fun t => unitHop (sumSq (sumSq (lineSq n0.toNat) (lineSq n1.toNat)) (lineSq n2.toNat)) t)
    (hopping_eq _ (((sqDist_line _).sum (sqDist_line _)).sum (sqDist_line _)) ?_) _ fun t => by
      rw [unitHop_sum ((sqDist_line _).sum (sqDist_line _)) (sqDist_line _), unitHop_sum (sqDist_line _) (sqDist_line _),
        unitHop_line, unitHop_line, unitHop_line]
      exact ((solved_path _ t).prod (solved_path _ t)).prod (solved_path _ t)
  rintro ⟨⟨i, i'⟩, i''⟩ ⟨⟨j, j'⟩, j''⟩
  rw [hpt, hpt, Fin.sum_univ_three]
  have a : ∀ {p q : ℕ} (x : Fin p) (y : Fin q), ((finProdFinEquiv (x, y) : Fin (p * q)) : ℕ) / q = x :=
    fun x y => by
      rw [finProdFinEquiv_apply_val, Nat.add_mul_div_left _ _ (lt_of_le_of_lt (Nat.zero_le _) y.2), Nat.div_eq_of_lt y.2,
        zero_add]
  have b : ∀ {p q : ℕ} (x : Fin p) (y : Fin q), ((finProdFinEquiv (x, y) : Fin (p * q)) : ℕ) % q = y :=
    fun x y => by rw [finProdFinEquiv_apply_val, Nat.add_mul_mod_self_left, Nat.mod_eq_of_lt y.2]
  have c : ∀ x : ℕ, x / (n1.toNat * n2.toNat) = x / n2.toNat / n1.toNat := fun x => by
    rw [mul_comm, Nat.div_div_eq_div_mul]
  simp only [c, Equiv.trans_apply, Equiv.prodCongr_apply, Prod.map_apply, Equiv.refl_apply, a, b]
  simp [lineSq, sumSq]

/-- **C124 (benzene ring).** The six levels `2 t cos (π k / 3)` of the Hückel ring. -/
theorem C124_benzene (hp : 1 ≤ prec) (hr : 1 / Real.sqrt 3 ≤ roundTo prec (1 / Real.sqrt 3)) (which : String)
    (hw : which ∈ ["honeycomb_benzene", "honeycomb_6", "benzene"]) :
    EveryHubbardRun (m := 2) prec 6 (specialCluster prec which) fun _ _ _ run =>
      FreeLevels 6 (fun t (k : Fin 6) => 2 * t * Real.cos (Real.pi * k / 3)) run := by
  refine (((C118_special hp which).2.2.2 hr).1 hw).mono fun L hL _ _ run hr => ?_
  rw [specialCluster, show specialInfo which = some ⟨2, honeycombBenzene⟩ by
    simp only [List.mem_cons, List.not_mem_nil, or_false] at hw
    rcases hw with rfl | rfl | rfl <;> simp [specialInfo]] at hL
  refine freeLevels_of hr.1 (Equiv.refl _) ringMatrix (fun t i j => benzene_hopping ?_ t i j) _ fun t => solved_ring t
  intro i
  have := mk_numbers hL i
  rw [List.getElem?_eq_getElem (show (i : ℕ) < honeycombBenzene.points.length from i.2)] at this
  exact (Option.some.inj this).symm

/-! ### The hypotheses are met -/

/-- One electron of each spin on the 2 × 3 rectangle: twice the level `2 t cos (π/3) + 2 t cos (π/4)` is an energy. -/
example (t : ℝ) : ∃ (L : Lat 6 2 2) (V : Setup), latticeGenerator 4 "square" 2 3 1 = .ok ⟨6, 2, 2, L⟩ ∧
    hubbardClusterSetup id (fun _ => id) defaultZoom (fun x => .flt (.fin ((⌊x * 2 ^ 30⌋ : ℤ) / 2 ^ 30))) 4 L t 0 1 1 =
      some (.ok V) ∧ V.HM.charpoly.IsRoot ((2 * (t + Real.sqrt 2 * t) : ℝ) : ℂ) := by
  obtain ⟨L, h1, h2⟩ := (C124_square (prec := 4) (n0 := 2) (n1 := 3) (n2 := 1) (by norm_num) (by norm_num)
    (by norm_num) (by norm_num) (by decide)).run (zoom := defaultZoom)
    (fun B hB => C108_generated (p := 4) (by norm_num) (by norm_num) (by norm_num)
      (by norm_num) (by norm_num) (by norm_num) nearFloats_example _ B hB)
  obtain ⟨V, hV, hc⟩ := h2 t 1 1 (by decide) (by decide)
  refine ⟨L, V, h1, hV, ?_⟩
  let k : Fin (Int.toNat 2) × Fin (Int.toNat 3) := (⟨0, by decide⟩, ⟨0, by decide⟩)
  have hk : chainLevel (Int.toNat 2) t k.1 + chainLevel (Int.toNat 3) t k.2 = t + Real.sqrt 2 * t := by
    have e1 : chainLevel (Int.toNat 2) t k.1 = t := by
      change 2 * t * Real.cos (Real.pi * (((0 : ℕ) : ℝ) + 1) / (((2 : ℕ) : ℝ) + 1)) = t
      rw [show Real.pi * (((0 : ℕ) : ℝ) + 1) / (((2 : ℕ) : ℝ) + 1) = Real.pi / 3 by norm_num, Real.cos_pi_div_three]
      ring
    have e2 : chainLevel (Int.toNat 3) t k.2 = Real.sqrt 2 * t := by
      change 2 * t * Real.cos (Real.pi * (((0 : ℕ) : ℝ) + 1) / (((3 : ℕ) : ℝ) + 1)) = _
      rw [show Real.pi * (((0 : ℕ) : ℝ) + 1) / (((3 : ℕ) : ℝ) + 1) = Real.pi / 4 by norm_num, Real.cos_pi_div_four]
      ring
    rw [e1, e2]
  have hmem : {k} ∈ Finset.powersetCard 1 (Finset.univ : Finset (Fin (Int.toNat 2) × Fin (Int.toNat 3))) := by
    simp [Finset.mem_powersetCard]
  rw [hc, ← Polynomial.dvd_iff_isRoot]
  refine dvd_trans ?_ (Finset.dvd_prod_of_mem _ hmem)
  refine dvd_trans ?_ (Finset.dvd_prod_of_mem _ hmem)
  rw [Finset.sum_singleton]
  dsimp only
  rw [hk]
  exact dvd_of_eq (by rw [two_mul])

/-- The levels of two points are `t` and `-t`. -/
example (t : ℝ) : chainLevel 2 t 0 = t ∧ chainLevel 2 t 1 = -t := by
  constructor
  · rw [chainLevel, show Real.pi * (((0 : Fin 2) : ℝ) + 1) / (((2 : ℕ) : ℝ) + 1) = Real.pi / 3 by norm_num, Real.cos_pi_div_three]
    ring
  · rw [chainLevel, show Real.pi * (((1 : Fin 2) : ℝ) + 1) / (((2 : ℕ) : ℝ) + 1) = Real.pi - Real.pi / 3 by norm_num; ring,
      Real.cos_pi_sub, Real.cos_pi_div_three]
    ring

end Verif.LDB
