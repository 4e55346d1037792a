import Verif.Proofs.HubbardCluster
import Verif.Props.LatticeBand
/-!
# C115: the Hubbard model of the built-in clusters, end to end

A cluster is built, `bonds(1)` is called, the on-site and hopping terms of HubbardChain.py are made from its points and
from the bonds inside it, and represented on the states with `Nup` and `Ndown` particles.
-/

namespace Verif.LDB

open Verif.Latt Verif.Spec Demo

variable {prec : ℕ} {n0 n1 n2 : ℤ}

/-- **C115 (generated lattices).** -/
theorem C115_generated (hp : 1 ≤ prec) (h0 : 1 ≤ n0) (h1 : 1 ≤ n1) (h2 : 1 ≤ n2) :
    (2 * n0.toNat ≤ 64 →
      EveryHubbardRun (m := 1) prec n0.toNat (latticeGenerator prec "chain" n0 n1 n2) (HubbardModel 1)) ∧
    (2 * (n0.toNat * n1.toNat) ≤ 64 →
      EveryHubbardRun (m := 2) prec (n0.toNat * n1.toNat) (latticeGenerator prec "square" n0 n1 n2) (HubbardModel 1)) ∧
    (2 * (n0.toNat * n1.toNat) ≤ 64 →
      EveryHubbardRun (m := 2) prec (n0.toNat * n1.toNat) (latticeGenerator prec "triangle" n0 n1 n2)
        (HubbardModel 1)) ∧
    (2 * (n0.toNat * n1.toNat * 3) ≤ 64 →
      EveryHubbardRun (m := 2) prec (n0.toNat * n1.toNat * 3) (latticeGenerator prec "kagome" n0 n1 n2)
        (HubbardModel (1 / 2))) ∧
    (2 * (n0.toNat * n1.toNat * n2.toNat) ≤ 64 →
      EveryHubbardRun (m := 3) prec (n0.toNat * n1.toNat * n2.toNat) (latticeGenerator prec "cubic" n0 n1 n2)
        (HubbardModel 1)) ∧
    (1 / Real.sqrt 3 ≤ roundTo prec (1 / Real.sqrt 3) → 2 * (n0.toNat * n1.toNat * 2) ≤ 64 →
      EveryHubbardRun (m := 2) prec (n0.toNat * n1.toNat * 2) (latticeGenerator prec "honeycomb" n0 n1 n2)
        (HubbardModel (1 / Real.sqrt 3))) := by
  obtain ⟨a, b, c, d, e, f⟩ := C94_generated hp h0 h1 h2
  have p0 : 1 ≤ n0.toNat := by omega
  have p1 : 1 ≤ n1.toNat := by omega
  have p2 : 1 ≤ n2.toNat := by omega
  have p01 : 1 ≤ n0.toNat * n1.toNat := Nat.mul_pos p0 p1
  have p012 : 1 ≤ n0.toNat * n1.toNat * n2.toNat := Nat.mul_pos p01 p2
  exact ⟨fun h => hubbard_run one_ne_zero p0 h (C53_chain hp h0 h1 h2) a,
    fun h => hubbard_run one_ne_zero p01 h (C53_square hp h0 h1 h2) b,
    fun h => hubbard_run one_ne_zero p01 h (C53_triangle hp h0 h1 h2) c,
    fun h => hubbard_run (by norm_num) (by omega) h (C53_kagome hp h0 h1 h2) d,
    fun h => hubbard_run one_ne_zero p012 h (C53_cubic hp h0 h1 h2) e,
    fun hr h => hubbard_run inv_sqrt3_pos.ne' (by omega) h (C53_honeycomb hp h0 h1 h2) (f hr)⟩

/-- **C115 (special clusters).** -/
theorem C115_special (hp : 1 ≤ prec) (which : String) :
    (which ∈ ["square_cross", "square_12", "cross"] →
      EveryHubbardRun (m := 2) prec 12 (specialCluster prec which) (HubbardModel 1)) ∧
    (which ∈ ["square_z", "z", "square_s", "s"] →
      EveryHubbardRun (m := 2) prec 10 (specialCluster prec which) (HubbardModel 1)) ∧
    (which ∈ ["triangle_star", "triangle_13", "star", "SD"] →
      EveryHubbardRun (m := 2) prec 13 (specialCluster prec which) (HubbardModel 1)) ∧
    (1 / Real.sqrt 3 ≤ roundTo prec (1 / Real.sqrt 3) →
      (which ∈ ["honeycomb_benzene", "honeycomb_6", "benzene"] →
        EveryHubbardRun (m := 2) prec 6 (specialCluster prec which) (HubbardModel (1 / Real.sqrt 3))) ∧
      (which ∈ ["honeycomb_diphenyl", "honeycomb_10", "diphenyl"] →
        EveryHubbardRun (m := 2) prec 10 (specialCluster prec which) (HubbardModel (1 / Real.sqrt 3))) ∧
      (which ∈ ["honeycomb_gear", "honeycomb_24", "gear"] →
        EveryHubbardRun (m := 2) prec 24 (specialCluster prec which) (HubbardModel (1 / Real.sqrt 3)))) := by
  obtain ⟨a, b, c, d⟩ := C94_special hp which
  refine ⟨fun h => hubbard_run one_ne_zero (by norm_num) (by norm_num) (C54_cross hp which h) (a h), fun h => ?_,
    fun h => hubbard_run one_ne_zero (by norm_num) (by norm_num) (C54_star hp which h) (c h), fun hr => ?_⟩
  · by_cases hz : which ∈ ["square_z", "z"]
    · exact hubbard_run one_ne_zero (by norm_num) (by norm_num) (C54_z hp which hz) (b h)
    · have hs : which ∈ ["square_s", "s"] := by
        simp only [List.mem_cons, List.not_mem_nil, or_false, not_or] at h hz ⊢
        tauto
      exact hubbard_run one_ne_zero (by norm_num) (by norm_num) (C54_s hp which hs) (b h)
  · have hd := (d hr).1
    have hd2 := (d hr).2
    have h0 : (1 : ℝ) / Real.sqrt 3 ≠ 0 := inv_sqrt3_pos.ne'
    generalize (1 : ℝ) / Real.sqrt 3 = dd at *
    refine ⟨fun h => ?_, fun h => ?_, fun h => ?_⟩
    · refine hubbard_run h0 (by norm_num) (by norm_num) (C54_benzene hp which h) (hd ?_)
      simp only [List.mem_cons, List.not_mem_nil, or_false] at h
      rcases h with h | h | h <;> simp [h]
    · exact hubbard_run h0 (by norm_num) (by norm_num) (C54_diphenyl hp which h) (hd2 h)
    · refine hubbard_run h0 (by norm_num) (by norm_num) (C54_gear hp which h) (hd ?_)
      simp only [List.mem_cons, List.not_mem_nil, or_false] at h
      rcases h with h | h | h <;> simp [h]

/-! ### The hypotheses are met -/

/-- For every lattice that is returned, the coordinates that C108 allows are allowed here. -/
theorem EveryHubbardRun.run {m count : ℕ} {r : Py Built}
    {Q : Lat count m m → ℤ → (ℝ → Coord) → (ℝ → ℝ → ℕ → ℕ → Option (Py Setup)) → Prop}
    (h : EveryHubbardRun prec count r Q) {zoom : ℤ} {coordOf : ℝ → Coord}
    (hd : ∀ B, r = .ok B → Distinguishes zoom coordOf B.lat.points) :
    ∃ L : Lat count m m, r = .ok ⟨count, m, m, L⟩ ∧ Q L zoom coordOf
      (hubbardClusterSetup id (fun _ => id) zoom coordOf prec L) := by
  obtain ⟨L, h1, h2⟩ := h
  exact ⟨L, h1, h2 id (fun l => List.Perm.refl l) (fun _ => id) (fun _ l => List.Perm.refl l) [] zoom coordOf (hd _ h1)⟩

/-- Three up and two down electrons on a 2 × 3 triangular lattice: the run exists and its matrix is that of the Hubbard
model. -/
example (t U : ℝ) : ∃ (L : Lat 6 2 2) (V : Setup), latticeGenerator 4 "triangle" 2 3 1 = .ok ⟨6, 2, 2, L⟩ ∧
    hubbardClusterSetup id (fun _ => id) defaultZoom (fun x => .flt (.fin ((⌊x * 2 ^ 30⌋ : ℤ) / 2 ^ 30))) 4 L t U 3 2 =
      some (.ok V) ∧
    SpinSector 6 3 2 V.basis ∧
    ∀ r c, V.HM r c = matrixElement (clusterHubbard 1 L.points t U) (occ V.basis[r]) (occ V.basis[c]) := by
  obtain ⟨L, h1, h2⟩ := ((C115_generated (prec := 4) (n0 := 2) (n1 := 3) (n2 := 1) (by norm_num) (by norm_num)
    (by norm_num) (by norm_num)).2.2.1 (by decide)).run (zoom := defaultZoom)
    (fun B hB => C108_generated (p := 4) (by norm_num) (by norm_num) (by norm_num)
      (by norm_num) (by norm_num) (by norm_num) nearFloats_example _ B hB)
  obtain ⟨V, hV, -, hs, hm, -⟩ := h2 t U 3 2 (by decide) (by decide)
  exact ⟨L, V, h1, hV, hs, hm⟩

/-- One site, one electron with spin up: a single basis state. -/
example : SpinSector 1 1 0 [2] := by
  refine ⟨by simp, fun k => ?_⟩
  constructor
  · intro hk
    obtain rfl := List.mem_singleton.1 hk
    decide
  · rintro ⟨h1, h2, h3⟩
    have hk : k < 4 := by
      by_contra h
      obtain ⟨b, hb, hb2⟩ := Nat.exists_ge_and_testBit_of_ge_two_pow (x := k) (n := 2) (by omega)
      have := Finset.mem_range.1 (h1 ((mem_occ _ _).2 hb2))
      omega
    interval_cases k <;> revert h1 h2 h3 <;> decide

end Verif.LDB
