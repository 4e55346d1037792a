import Verif.Proofs.Dimer
import Verif.Props.Numbering
import Verif.Props.HubbardCluster
/-!
# C126: two interacting electrons on two points

The built-in lattices with two points: two points of a chain, two neighbouring points of the square, the triangular and
the cubic lattice, and a cell of the honeycomb lattice.
-/

namespace Verif.LDB

open Verif.Latt Verif.Spec Demo

variable {prec : ℕ} {n1 n2 : ℤ}

/-- What C126 says of a call that builds two points. -/
theorem dimer_run {m : ℕ} {d : ℝ} {r : Py Built} {point : ℕ → Pt m} (h : EveryHubbardRun (m := m) prec 2 r (HubbardModel d))
    (hn : Numbers 2 point r) (hd : ndist (point 0) (point 1) = d) :
    EveryHubbardRun (m := m) prec 2 r fun _ _ _ run => DimerEnergies run ∧ DimerGround run := by
  refine h.mono fun L hL _ _ run hr => ?_
  obtain ⟨L', hL', hp⟩ := hn
  have e : L = L' := by
    have := hL.symm.trans hL'
    simpa using this
  subst e
  have := dimer_energies hr (by rw [hp 0, hp 1]; exact hd)
  exact ⟨this, dimer_ground this⟩

/-- **C126 (chain).** -/
theorem C126_chain (hp : 1 ≤ prec) (h1 : 1 ≤ n1) (h2 : 1 ≤ n2) :
    EveryHubbardRun (m := 1) prec 2 (latticeGenerator prec "chain" 2 n1 n2)
      fun _ _ _ run => DimerEnergies run ∧ DimerGround run :=
  dimer_run ((C115_generated hp (n0 := 2) (by norm_num) h1 h2).1 (by decide))
    (C123_chain hp (n0 := 2) (by norm_num) h1 h2) (by simp [ndist])

/-- **C126 (square).** -/
theorem C126_square (hp : 1 ≤ prec) (h2 : 1 ≤ n2) :
    EveryHubbardRun (m := 2) prec 2 (latticeGenerator prec "square" 2 1 n2)
      (fun _ _ _ run => DimerEnergies run ∧ DimerGround run) ∧
    EveryHubbardRun (m := 2) prec 2 (latticeGenerator prec "square" 1 2 n2)
      (fun _ _ _ run => DimerEnergies run ∧ DimerGround run) :=
  ⟨dimer_run ((C115_generated hp (n0 := 2) (n1 := 1) (by norm_num) (by norm_num) h2).2.1 (by decide))
    (C123_square hp (n0 := 2) (n1 := 1) (by norm_num) (by norm_num) h2) (by simp [ndist]),
   dimer_run ((C115_generated hp (n0 := 1) (n1 := 2) (by norm_num) (by norm_num) h2).2.1 (by decide))
    (C123_square hp (n0 := 1) (n1 := 2) (by norm_num) (by norm_num) h2) (by simp [ndist])⟩

/-- **C126 (triangle).** -/
theorem C126_triangle (hp : 1 ≤ prec) (h2 : 1 ≤ n2) :
    EveryHubbardRun (m := 2) prec 2 (latticeGenerator prec "triangle" 2 1 n2)
      (fun _ _ _ run => DimerEnergies run ∧ DimerGround run) ∧
    EveryHubbardRun (m := 2) prec 2 (latticeGenerator prec "triangle" 1 2 n2)
      (fun _ _ _ run => DimerEnergies run ∧ DimerGround run) :=
  ⟨dimer_run ((C115_generated hp (n0 := 2) (n1 := 1) (by norm_num) (by norm_num) h2).2.2.1 (by decide))
    (C123_triangle hp (n0 := 2) (n1 := 1) (by norm_num) (by norm_num) h2) (by simp [ndist, triangleSite]),
   dimer_run ((C115_generated hp (n0 := 1) (n1 := 2) (by norm_num) (by norm_num) h2).2.2.1 (by decide))
    (C123_triangle hp (n0 := 1) (n1 := 2) (by norm_num) (by norm_num) h2) (by
      simp [ndist, triangleSite]
      norm_num [div_pow])⟩

/-- **C126 (cubic).** -/
theorem C126_cubic (hp : 1 ≤ prec) :
    EveryHubbardRun (m := 3) prec 2 (latticeGenerator prec "cubic" 2 1 1)
      (fun _ _ _ run => DimerEnergies run ∧ DimerGround run) ∧
    EveryHubbardRun (m := 3) prec 2 (latticeGenerator prec "cubic" 1 2 1)
      (fun _ _ _ run => DimerEnergies run ∧ DimerGround run) ∧
    EveryHubbardRun (m := 3) prec 2 (latticeGenerator prec "cubic" 1 1 2)
      (fun _ _ _ run => DimerEnergies run ∧ DimerGround run) :=
  ⟨dimer_run ((C115_generated hp (n0 := 2) (n1 := 1) (n2 := 1) (by norm_num) (by norm_num) (by norm_num)).2.2.2.2.1
      (by decide))
    (C123_cubic hp (n0 := 2) (n1 := 1) (n2 := 1) (by norm_num) (by norm_num) (by norm_num))
    (by simp [ndist, Fin.sum_univ_three]),
   dimer_run ((C115_generated hp (n0 := 1) (n1 := 2) (n2 := 1) (by norm_num) (by norm_num) (by norm_num)).2.2.2.2.1
      (by decide))
    (C123_cubic hp (n0 := 1) (n1 := 2) (n2 := 1) (by norm_num) (by norm_num) (by norm_num))
    (by simp [ndist, Fin.sum_univ_three]),
   dimer_run ((C115_generated hp (n0 := 1) (n1 := 1) (n2 := 2) (by norm_num) (by norm_num) (by norm_num)).2.2.2.2.1
      (by decide))
    (C123_cubic hp (n0 := 1) (n1 := 1) (n2 := 2) (by norm_num) (by norm_num) (by norm_num))
    (by simp [ndist, Fin.sum_univ_three])⟩

/-- **C126 (a cell of the honeycomb lattice).** -/
theorem C126_honeycomb (hp : 1 ≤ prec) (hr : 1 / Real.sqrt 3 ≤ roundTo prec (1 / Real.sqrt 3)) (h2 : 1 ≤ n2) :
    EveryHubbardRun (m := 2) prec 2 (latticeGenerator prec "honeycomb" 1 1 n2)
      fun _ _ _ run => DimerEnergies run ∧ DimerGround run :=
  dimer_run ((C115_generated hp (n0 := 1) (n1 := 1) (by norm_num) (by norm_num) h2).2.2.2.2.2 hr (by decide))
    (C123_honeycomb hp (n0 := 1) (n1 := 1) (by norm_num) (by norm_num) h2) (by
      have h3 : (0 : ℝ) < Real.sqrt 3 := by positivity
      simp [ndist, triangleSite, Fin.sum_univ_two]
      rw [show (-((Real.sqrt 3)⁻¹ * 2⁻¹) - (Real.sqrt 3)⁻¹ * 2⁻¹) ^ 2 = ((Real.sqrt 3)⁻¹) ^ 2 by ring,
        Real.sqrt_sq (by positivity)])

/-! ### The hypotheses are met -/

/-- The chain of two points with `t = -1`, `U = 3`: the energies of two electrons are 0, 3, 4 and -1, and -1 is the lowest
energy. -/
example : ∃ (L : Lat 2 1 1) (V : Setup), latticeGenerator 4 "chain" 2 1 1 = .ok ⟨2, 1, 1, L⟩ ∧
    hubbardClusterSetup id (fun _ => id) defaultZoom (fun x => .flt (.fin ((⌊x * 2 ^ 30⌋ : ℤ) / 2 ^ 30))) 4 L (-1) 3 1 1 =
      some (.ok V) ∧ IsLowest V.HM (-1) := by
  obtain ⟨L, h1, h2⟩ := (C126_chain (prec := 4) (n1 := 1) (n2 := 1) (by norm_num) (by norm_num) (by norm_num)).run
    (zoom := defaultZoom)
    (fun B hB => C108_generated (p := 4) (by norm_num) (by norm_num) (by norm_num)
      (by norm_num) (by norm_num) (by norm_num) nearFloats_example _ B hB)
  obtain ⟨V, hV, hl⟩ := h2.2 (-1) 3
  refine ⟨L, V, h1, hV, ?_⟩
  have e : (3 - Real.sqrt (3 ^ 2 + 16 * (-1) ^ 2)) / 2 = -1 := by
    rw [show (3 : ℝ) ^ 2 + 16 * (-1) ^ 2 = 5 ^ 2 by norm_num, Real.sqrt_sq (by norm_num)]
    norm_num
  rwa [e] at hl

end Verif.LDB
